import Verif.Lemmas.Stack
import Verif.Props.SetWrite

/-
  C102: the stack that is needed to open a file.
-/

namespace Olecf.Props
open Olecf Olecf.Spec Olecf.Lemmas

/-! ### The tree of items -/

theorem createTreeIn_all (list : List DirEntry) (cmp : Bytes → Bytes → Option Bool) (depth : Nat)
    (hd : list.length < depth) : createTreeIn depth list cmp = (createTree list cmp).res := by
  unfold createTreeIn createTree
  cases list with
  | nil => rfl
  | cons x l =>
    dsimp only
    cases findRoot (x :: l) with
    | none => rfl
    | some root =>
      dsimp only
      split
      · rfl
      · have h := processEntry_terminates (x :: l) cmp root.id ((x :: l).length + 1) none none root
          ⟨[], fun _ => []⟩ (unmarked_nil _)
        have hm := processEntry_more (x :: l) cmp root.id ((x :: l).length + 1) depth hd none none root
          ⟨[], fun _ => []⟩ (by rcases h with h | ⟨st, h, _⟩ <;> rw [h] <;> simp)
        rw [hm]
        rcases h with h | ⟨st, h, _⟩ <;> rw [h]

theorem createTreeIn_run {list : List DirEntry} {cmp : Bytes → Bytes → Option Bool} {t : Tree}
    {m : List Nat} (h : (createTree list cmp).res = .ok (some (t, m))) (depth : Nat) :
    createTreeIn depth list cmp =
      match processEntry list cmp t.root.id depth none none t.root ⟨[], fun _ => []⟩ with
      | .ok st => .ok (some (⟨t.root, st.kids⟩, t.root.id :: st.marks))
      | .err => .err
      | .ub => .ub
      | .hang => .ub := by
  obtain ⟨hmem, hfind, hsub, _⟩ := createTree_some h
  unfold createTreeIn
  cases list with
  | nil => cases hmem
  | cons x l =>
    dsimp only
    rw [findRoot_eq, hfind]
    dsimp only
    rw [if_neg hsub]
    rfl

/-- C102, exactly how much is needed: a directory of which the library makes a tree of items is
  handled with room for `depth` nested calls exactly if all paths of links from the root storage
  have less than `depth` links.  With less room the call fails to return in any way. -/
theorem C102_depth_exact (list : List DirEntry) (cmp : Bytes → Bytes → Option Bool) (t : Tree)
    (m : List Nat) (h : (createTree list cmp).res = .ok (some (t, m))) (depth : Nat) :
    (createTreeIn depth list cmp = .ok (some (t, m)) ↔
      ∀ path e, reach list t.root.id t.root path = some e → path.length < depth) ∧
    (createTreeIn depth list cmp = .ub ↔
      ∃ path e, reach list t.root.id t.root path = some e ∧ depth ≤ path.length) := by
  obtain ⟨_, _, _, st, hp, hk, hm⟩ := createTree_some h
  have key : (∀ path e, reach list t.root.id t.root path = some e → path.length < depth) →
      createTreeIn depth list cmp = .ok (some (t, m)) := by
    intro hr
    rw [createTreeIn_run h, processEntry_room list cmp _ _ depth _ _ _ _ _ hp hr]
    simp only
    rw [← hk, ← hm]
  have key' : (∃ path e, reach list t.root.id t.root path = some e ∧ depth ≤ path.length) →
      createTreeIn depth list cmp = .ub := by
    rintro ⟨path, e, hr, hle⟩
    rw [createTreeIn_run h]
    have hang : processEntry list cmp t.root.id depth none none t.root ⟨[], fun _ => []⟩ = .hang := by
      by_contra hne
      have hlt : depth ≤ list.length + 1 := by
        have := processEntry_paths list cmp _ _ _ _ _ _ _ hp path e hr
        omega
      have := processEntry_more list cmp _ depth (list.length + 1) hlt _ _ _ _ hne
      rw [hp] at this
      have := processEntry_paths list cmp _ _ _ _ _ _ _ this.symm path e hr
      omega
    rw [hang]
  constructor
  · constructor
    · intro hok path e hr
      by_contra hle
      rw [key' ⟨path, e, hr, by omega⟩] at hok
      cases hok
    · exact key
  · constructor
    · intro hub
      by_contra hno
      have := key fun path e hr => by
        by_contra hle
        exact hno ⟨path, e, hr, by omega⟩
      rw [this] at hub
      cases hub
    · exact key'

theorem item_path {list : List DirEntry} {cmp : Bytes → Bytes → Option Bool}
    (hnd : (list.map (·.id)).Nodup) {t : Tree} {m : List Nat}
    (h : (createTree list cmp).res = .ok (some (t, m))) : ∀ (n : Nat) (p : List Nat), p.length = n →
    ∀ it, itemAt t p = some it → ∃ path, reach list t.root.id t.root path = some it.entry ∧
      p.length ≤ path.length := by
  intro n
  induction n with
  | zero =>
    intro p hl it hi
    rw [List.eq_nil_of_length_eq_zero hl] at hi ⊢
    cases hi
    exact ⟨[], rfl, by simp⟩
  | succ n ih =>
    intro p hl it hi
    rcases List.eq_nil_or_concat p with rfl | ⟨p', i, rfl⟩
    · simp at hl
    · rw [List.concat_eq_append] at hi hl ⊢
      obtain ⟨up, hup, hsub⟩ := (itemFrom_snoc t p' _ i it).1 hi
      obtain ⟨path, hr, hle⟩ := ih p' (by simpa using hl) up hup
      obtain ⟨x, _, rfl⟩ := getSubItem_ok.1 hsub
      obtain ⟨c, hc, ks, _, hks⟩ := ((C18_sub_items_exact list cmp hnd t m h).1 p' up hup x).1 ⟨i, hsub⟩
      refine ⟨path ++ (.sub :: ks), ?_, by simp; omega⟩
      rw [reach_append, hr]
      show reach list t.root.id up.entry (.sub :: ks) = some x
      unfold reach
      rw [hc]
      exact hks

/-! ### A file -/

theorem openCoreIn_eq {cmp : Bytes → Bytes → Option Bool} {dev : Dev} {io io' : IoHandle} {l : Loaded}
    {hdr : FileHeader} {t0 : AllocTable} {list : List DirEntry} {tree : Option (Tree × List Nat)}
    (ho : Opened cmp dev io l io' hdr t0 list tree) (depth : Nat) :
    openCoreIn depth cmp dev io =
      (createTreeIn depth list cmp >>= fun tree => pure ⟨l.msat, l.sat, l.ssat, tree.map (·.1)⟩) := by
  unfold openCoreIn
  rw [init109, init0]
  show ((headerRead dev ⟨List.replicate 109 0⟩).res >>= _) = _
  rw [ho.hheader]
  show ((readMsat (io.withHeader hdr) dev t0 hdr.msatSector hdr.msatSectors).res >>= _) = _
  rw [ho.hmsat]
  show ((readSat (io.withHeader hdr) dev l.msat ⟨[]⟩ hdr.satSectors).res >>= _) = _
  rw [ho.hsat]
  show ((readSsat (io.withHeader hdr) dev l.sat ⟨[]⟩ hdr.ssatSector hdr.ssatSectors).res >>= _) = _
  rw [ho.hssat]
  show ((readDirectory (io.withHeader hdr) dev l.sat [] hdr.rootDirSector).1.res >>= _) = _
  rw [ho.hdir]
  show (createTreeIn depth (readDirectory (io.withHeader hdr) dev l.sat [] hdr.rootDirSector).2 cmp >>= _) = _
  rw [ho.hlist]

theorem directory_length {io : IoHandle} {dev : Dev} {sat : AllocTable} {root k : Nat}
    (hsw : sat.WF) (hr : root < 2 ^ 32) (hk : k ≤ 15) (hss : io.sectorSize = 2 ^ k)
    (h : (readDirectory io dev sat [] root).1.res = .ok ()) :
    (readDirectory io dev sat [] root).2.length ≤ 1025 * (io.sectorSize / 128) := by
  have hc : io.sectorSize ≠ 0 ∧ io.sectorSize ≤ MAX_ALLOC ∧ io.sectorSize % 128 = 0 ∧ root ≠ EOC := by
    unfold readDirectory at h
    split at h
    · cases h
    · split at h
      · cases h
      · rename_i h1 h2
        simp only [not_or, Classical.not_not] at h1
        exact ⟨h1.1, by omega, h1.2.2, h2⟩
  obtain ⟨h1, h2, h3, h4⟩ := hc
  obtain ⟨ids, rep, secs, _, hlen, hsec, _, he⟩ :=
    (C15_directory_exact io dev sat.ids root (io.sectorSize / 128) _ (by omega) (by omega) h2
      hsw.size hsw.lt hr h4).1 ⟨h, rfl⟩
  rw [he]
  have hs : secs.length = ids.length := by simpa using (congrArg List.length hsec).symm
  have hflat : secs.flatten.length = secs.length * io.sectorSize := by
    refine flatten_length fun s hmem => ?_
    have : some s ∈ ids.map (sector dev io.sectorSize) := by rw [hsec]; exact List.mem_map_of_mem hmem
    obtain ⟨i, _, hi⟩ := List.mem_map.1 this
    exact sector_length hi
  have hle : (entriesOf io.byteOrder secs.flatten).length ≤ slotCount secs.flatten := by
    unfold entriesOf
    exact Nat.le_trans (List.length_filterMap_le _ _) (by simp)
  refine Nat.le_trans hle ?_
  unfold slotCount
  have hids : ids.length ≤ 1025 := by split at hlen <;> omega
  rw [hflat, hs]
  have e1 : ids.length * io.sectorSize / 128 = ids.length * (io.sectorSize / 128) := by
    rw [Nat.mul_div_assoc]
    exact Nat.dvd_of_mod_eq_zero h3
  rw [e1]
  exact Nat.mul_le_mul_right _ hids

theorem andThen_bind {α β : Type} (io : IoHandle) (o : Out α) (f : α → Out β × IoHandle) :
    (Out.andThen io o f).1.res = (o.res >>= fun a => (f a).1.res) := by
  unfold Out.andThen
  cases o.res <;> rfl

theorem bind_congr_ok {α β : Type} {x : Res α} {f g : α → Res β} (h : ∀ a, x = .ok a → f a = g a) :
    (x >>= f) = (x >>= g) := by
  cases x with
  | ok a => exact h a rfl
  | _ => rfl

/-- C102, how much is enough: room for 262401 nested calls is enough for every file, whether it is
  opened in the end or not. -/
theorem C102_enough (cmp : Bytes → Bytes → Option Bool) (dev : Dev) (io : IoHandle) (depth : Nat)
    (hd : 262400 < depth) :
    openCoreIn depth cmp dev io = (openCore cmp dev io).1.res ∧ (openCoreIn depth cmp dev io).Defined := by
  have key : openCoreIn depth cmp dev io = (openCore cmp dev io).1.res := by
    unfold openCoreIn
    rw [openCore_eq, init109, init0]
    show ((headerRead dev ⟨List.replicate 109 0⟩).res >>= _) = _
    rw [andThen_bind]
    refine bind_congr_ok fun x hx => ?_
    obtain ⟨hdr, t0⟩ := x
    dsimp only
    obtain ⟨hl, hv, h1, h2, h3, h4, h5, h6, h7⟩ := headerRead_fits hx
    obtain ⟨⟨k, hk, hks⟩, _⟩ := headerRead_sizes hx
    rw [andThen_bind]
    refine bind_congr_ok fun msat hm => ?_
    have hmw : msat.WF := by
      rcases (readMsat_safe (io.withHeader hdr) dev t0 hdr.msatSector hdr.msatSectors h3
        ⟨by show t0.ids.length ≤ _; omega, hv⟩).1 with he | ⟨t, ht, hw, _⟩
      · rw [hm] at he; cases he
      · rw [hm] at ht; cases ht; exact hw
    rw [andThen_bind]
    refine bind_congr_ok fun sat hs => ?_
    have hsw : sat.WF := by
      obtain ⟨t, ht, hw, _⟩ := readSat_safe (io.withHeader hdr) dev msat hdr.satSectors k hk hks hmw.lt
      rw [hs] at ht; cases ht; exact hw
    rw [andThen_bind]
    refine bind_congr_ok fun ssat _ => ?_
    rw [andThen_bind]
    refine bind_congr_ok fun _ hdir => ?_
    rw [andThen_bind]
    have hlen := directory_length hsw h1 hk hks hdir
    have hss : (io.withHeader hdr).sectorSize ≤ 2 ^ 15 := by
      rw [withHeader_sectorSize, hks]
      exact Nat.pow_le_pow_right (by omega) hk
    rw [createTreeIn_all _ _ _ (by omega)]
    rfl
  exact ⟨key, key ▸ openCore_defined cmp dev io⟩

/-- C102, how much is needed for items in items: to open a file in which an item is nested `n` levels
  deep, room for more than `n` nested calls is needed. -/
theorem C102_nesting_needs {cmp : Bytes → Bytes → Option Bool} {dev : Dev} {io : IoHandle} {l : Loaded}
    (h : (openCore cmp dev io).1.res = .ok l) {t : Tree} (ht : l.tree = some t) {p : List Nat} {it : Item}
    (hi : itemAt t p = some it) {depth : Nat} (hd : depth ≤ p.length) :
    openCoreIn depth cmp dev io = .ub := by
  obtain ⟨hdr, t0, list, tree, ho⟩ := openCore_ok_iff.1 ⟨h, rfl⟩
  have htree := ho.hltree
  rw [ht] at htree
  cases tree with
  | none => cases htree
  | some x =>
    obtain ⟨t', m⟩ := x
    cases htree
    obtain ⟨_, _, h1, _⟩ := headerRead_fits ho.hheader
    obtain ⟨hsorted, _⟩ := readDirectory_entries ho.wf.2.1 h1 ho.hdir
    rw [ho.hlist] at hsorted
    have hnd : (list.map (·.id)).Nodup := hsorted.imp fun h => Nat.ne_of_lt h
    obtain ⟨path, hr, hle⟩ := item_path hnd ho.htree _ p rfl it hi
    rw [openCoreIn_eq ho, (C102_depth_exact list cmp _ m ho.htree depth).2.2 ⟨path, _, hr, by omega⟩]
    rfl

/-! ### Documents that need much -/

/-- Storages in each other, `n` of them in the outermost. -/
def nest : Nat → Doc
  | 0 => .storage []
  | n + 1 => .storage [([65, 0], nest n)]

/-- The document that has them at its top. -/
def nested (n : Nat) : List (Bytes × Doc) := [([65, 0], nest n)]

theorem nest_count (n : Nat) : (nest n).count = n + 1 := by
  induction n with
  | zero => simp [nest, Doc.count, countKids]
  | succ n ih => simp [nest, Doc.count, countKids, ih]; omega

theorem nest_streams (n : Nat) : (nest n).streams = [] := by
  induction n with
  | zero => simp [nest, Doc.streams, streamsOfKids]
  | succ n ih => simp [nest, Doc.streams, streamsOfKids, ih]

theorem nest_names (n : Nat) : ∀ x ∈ (nest n).names, x = [65, 0] := by
  induction n with
  | zero => simp [nest, Doc.names, namesOfKids]
  | succ n ih => simpa [nest, Doc.names, namesOfKids] using ih

theorem nested_at (n : Nat) : ∀ k ≤ n,
    DocAt (.storage (nested n)) (List.replicate (k + 1) [65, 0]) (nest (n - k)) := by
  intro k
  induction k with
  | zero => intro _; exact .sub (path := []) (n := [65, 0]) .here (by unfold nested; exact .head _)
  | succ k ih =>
    intro hk
    have h := ih (by omega)
    obtain ⟨j, hj⟩ : ∃ j, n - k = j + 1 := ⟨n - k - 1, by omega⟩
    rw [hj] at h
    unfold nest at h
    have := DocAt.sub h (.head _)
    rw [List.replicate_succ' (n := k + 1), show n - (k + 1) = j by omega]
    exact this

/-- The document in a file with sectors of 32768 bytes. -/
def deepWriter (e : Endian) : Writer := ⟨e, 15, 6, 4096, {}⟩

/-- The sectors of its file, and that it is within the limits. -/
theorem nested_counts (e : Endian) {n : Nat} (hn : n ≤ 262398) :
    runCount (deepWriter e) (nested n) ≤ units 256 (n + 2) ∧ satCount (deepWriter e) (nested n) ≤ 1 ∧
      msatCount (deepWriter e) (nested n) = 0 ∧ Storable (deepWriter e) (nested n) := by
  have hss : (deepWriter e).ss = 32768 := rfl
  have hper : (deepWriter e).perSector = 8192 := rfl
  have hslots : (deepWriter e).slotsPerSector = 256 := rfl
  have hstr : streamsOfKids (nested n) = [] := by simp [nested, streamsOfKids, nest_streams]
  have hcount : countKids (nested n) = n + 1 := by simp [nested, countKids, nest_count]
  have hdir : dirCount (deepWriter e) (nested n) ≤ 1025 :=
    units_le (by rw [hslots]; decide) (by rw [hslots, hcount]; omega)
  have hcont : containerOf (deepWriter e) (nested n) = [] := by
    simp [containerOf, shortSectors, hstr, Writer.shorts]
  have hssat : (ssatSectorsOf (deepWriter e) (nested n)).length = 0 := by
    unfold ssatSectorsOf ssatOf
    rw [hstr, List.length_map, chunk_length (by rw [hper]; decide) (padUp_length (by rw [hper]; decide) _ _),
      hper, show (deepWriter e).shorts [] = [] from rfl]
    show units 8192 (links 0 []).length = 0
    decide +kernel
  have hcs : (containerSectors (deepWriter e) (nested n)).length = 0 := by
    unfold containerSectors
    rw [hcont, blocks_length (by rw [hss]; decide), hss]
    decide +kernel
  have hdirs : (dirSectorsOf (deepWriter e) (nested n)).length ≤ units 256 (n + 2) := by
    unfold dirSectorsOf slotsOfFile
    rw [List.length_map, chunk_length (by rw [hslots]; decide) (padUp_length (by rw [hslots]; decide) _ _),
      List.length_cons, slotsOfKids_length, hslots, hcount]
    exact Nat.le_refl _
  have hrun : runCount (deepWriter e) (nested n) ≤ units 256 (n + 2) := by
    unfold runCount runs
    rw [List.map_cons, List.map_cons, List.map_cons, List.sum_cons, List.sum_cons, List.sum_cons, hssat, hcs,
      hstr]
    simpa [Writer.longs] using hdirs
  have hunits : units 256 (n + 2) ≤ 1025 := units_le (by decide) (by omega)
  have hsat : satCount (deepWriter e) (nested n) ≤ 1 :=
    units_le (by rw [hper]; decide) (by rw [hper]; omega)
  have hmsat : msatCount (deepWriter e) (nested n) ≤ 0 :=
    units_le (by rw [hper]; decide) (by omega)
  refine ⟨hrun, hsat, by omega, by show 9 ≤ 15 ∧ 15 ≤ 15; decide, by show 6 ≤ 15; decide, by show 4096 < 2 ^ 32; decide, noMarks_fits, by simp [nested], ?_, ?_, ?_,
    hdir, by omega, by omega, ?_⟩
  · intro x hx
    have : x = [65, 0] := by
      simp only [nested, namesOfKids, List.append_nil, List.mem_cons] at hx
      exact hx.elim id (nest_names n x)
    rw [this]
    decide
  · rw [hstr]; simp
  · rw [hcont]; decide
  · rw [hss]; omega

theorem encodeFile_length {w : Writer} {kids : List (Bytes × Doc)} (hst : Storable w kids) :
    (encodeFile w kids).length = (1 + runCount w kids + satCount w kids + msatCount w kids) * w.ss := by
  have hs := sizes hst.sectorExp
  have h1 := encodeHeader_length w.order (headerOfFile w kids) (headerOfFile_fits hst)
  unfold encodeFile
  rw [List.length_append, List.length_append, h1, List.length_replicate, flatten_length (sectors_length hst),
    List.length_append, List.length_append, satSectorsOf_length hst, msatSectorsOf_length hst, List.length_flatten]
  show 512 + (w.ss - 512) + (runCount w kids + satCount w kids + msatCount w kids) * w.ss = _
  have : 512 ≤ w.ss := by
    show 2 ^ 9 ≤ 2 ^ w.sectorExp
    exact Nat.pow_le_pow_right (by omega) hst.sectorExp.1
  rw [show 1 + runCount w kids + satCount w kids + msatCount w kids =
    (runCount w kids + satCount w kids + msatCount w kids) + 1 by omega, Nat.succ_mul]
  omega

theorem size_le {n u a b : Nat} (ha : a ≤ u) (hb : b ≤ 1) (hu : u * 256 ≤ n + 257) :
    (1 + a + b) * 32768 ≤ 128 * n + 98432 := by
  have h0 : 1 + a + b ≤ u + 2 := by omega
  have h1 := Nat.mul_le_mul_left 128 hu
  rw [Nat.mul_comm u, ← Nat.mul_assoc, Nat.mul_add] at h1
  refine Nat.le_trans (Nat.mul_le_mul_right 32768 h0) ?_
  rw [Nat.add_mul, Nat.mul_comm u]
  have h2 := Nat.add_le_add_right h1 65536
  rw [Nat.add_assoc, show 128 * 257 + 65536 = 98432 from rfl, show 128 * 256 = 32768 from rfl] at h2
  exact h2

theorem named_length {t : Tree} {nameOf : DirEntry → Bytes} {ns : List Bytes} {it : Item}
    (h : NamedFrom t nameOf ⟨none, t.root⟩ ns it) : ∃ q, itemAt t q = some it ∧ q.length = ns.length := by
  induction h with
  | here => exact ⟨[], rfl, rfl⟩
  | @sub ns it s i _ hi ih =>
    obtain ⟨q, hq, hl⟩ := ih
    exact ⟨q ++ [i], (itemFrom_snoc t q _ i s).2 ⟨it, hq, hi⟩, by simp [hl]⟩

/-- C102 is violated: there is no fixed amount of stack that is enough for the documents within the
  limits of the library.  For every `n` up to 262398, a document with as many storages in each
  other is stored in a file of about 128 bytes for each and is opened if there is room enough; with room
  for at most `n + 1` nested calls the open crashes. -/
theorem C102_deep_document_violated (e : Endian) {n : Nat} (hn : n ≤ 262398)
    (cmp : Bytes → Bytes → Option Bool) (io : IoHandle) :
    (encodeFile (deepWriter e) (nested n)).length ≤ 128 * n + 98432 ∧
    (∃ l, (openCore cmp (Dev.ofBytes (encodeFile (deepWriter e) (nested n))) io).1.res = .ok l) ∧
    ∀ depth ≤ n + 1,
      openCoreIn depth cmp (Dev.ofBytes (encodeFile (deepWriter e) (nested n))) io = .ub := by
  obtain ⟨hrun, hsat, hmsat, hst⟩ := nested_counts e hn
  have hholds := encodeFile_holds hst
  obtain ⟨l, t, hl, ht, hs⟩ := C47_load hholds cmp (by
    intro x hx
    have hl : x.length ≠ 28 ∧ x.length ≠ 20 := by
      rcases List.mem_cons.1 hx with rfl | hx
      · cases e <;> decide
      · simp only [nested, namesOfKids, List.append_nil, List.mem_cons] at hx
        rw [show x = [65, 0] from hx.elim id (nest_names n x)]
        decide
    exact ⟨fun h => absurd h hl.1, fun h => absurd h hl.2⟩) io
  refine ⟨?_, ⟨l, hl⟩, fun depth hd => ?_⟩
  · rw [encodeFile_length hst, show (deepWriter e).ss = 32768 from rfl]
    have h1 : units 256 (n + 2) * 256 ≤ n + 2 + 255 := units_le_div (by decide) _
    rw [hmsat, Nat.add_zero]
    exact size_le hrun hsat h1
  obtain ⟨it, hname, _⟩ := docAt_named (g := id) hs (nested_at n n (Nat.le_refl _))
  rw [List.map_id] at hname
  obtain ⟨q, hq, hlen⟩ := named_length hname
  refine C102_nesting_needs hl ht hq ?_
  rw [hlen, List.length_replicate]
  exact hd

/-- A tree is made of this directory, and the longest path of links in it has this many links
  (C102_depth_exact). -/
example : (∃ r, (createTree sampleDir cmpNone).res = .ok (some r)) ∧
    (∃ r, createTreeIn 3 sampleDir cmpNone = .ok (some r)) ∧
    createTreeIn 2 sampleDir cmpNone = .ub := ⟨⟨_, rfl⟩, ⟨_, rfl⟩, rfl⟩

/-- The document with the items nested five deep (C102_deep_document_violated, C102_nesting_needs). -/
example : openCoreIn 5 cmpNone (Dev.ofBytes (encodeFile (deepWriter .little) (nested 4))) .cleared = .ub :=
  (C102_deep_document_violated .little (by omega) cmpNone .cleared).2.2 5 (by omega)

end Olecf.Props
