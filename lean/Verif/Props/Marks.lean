import Verif.Lemmas.Marks
import Verif.Props.FuseDoc
import Verif.Props.Text

/-
  Property C91: the times of items are those stored, in the library and in a mounted file system.
-/

namespace Olecf.Props
open Olecf.Spec

/-! ### The items of a stored document -/

/-- The hierarchy of an opened file with a stored document. -/
theorem opened_tree {w : Writer} {kids : List (Bytes × Doc)} (hst : Storable w kids)
    {cmp : Bytes → Bytes → Option Bool} (hcmp : ∀ n ∈ namesOfKids kids, Comparable cmp n)
    {st : FileState} (hr : Reachable cmp st) (hclosed : st.file.handle = none)
    {h : HandleId} (hdev : st.world.dev h = Dev.ofBytes (encodeFile w kids))
    {flags : Nat} (hfl : flags % 4 = 1) :
    (openHandle cmp h flags {} st).1 = .ok () ∧
    ∃ t f m, (openHandle cmp h flags {} st).2.file.tree = some t ∧
      (openHandle cmp h flags {} st).2.file.ctx
        ((openHandle cmp h flags {} st).2.world.dev h) = some f ∧
      (createTree (entriesOfSlots (slotsOfFile w kids)) cmp).res = .ok (some (t, m)) ∧
      (∀ d ∈ entriesOfSlots (slotsOfFile w kids), EntryFits d) ∧
      Shows t f ⟨none, t.root⟩ (.storage kids) := by
  have hcmp' : ∀ n ∈ (entriesOfSlots (slotsOfFile w kids)).map (·.name), Comparable cmp n := by
    rw [slotsOfFile_names hst]
    intro n hn
    rcases List.mem_cons.1 hn with rfl | hn
    · exact rootName_comparable _ _
    · exact hcmp n hn
  have hok := (C60_written_document_shown w kids hst cmp hcmp st hr hclosed h hdev flags hfl).1
  refine ⟨hok, ?_⟩
  obtain ⟨l, hdr, t0, list, tree, ho, hfile, hworld⟩ := openHandle_loaded (reachable_inv hr).closed hok
  obtain ⟨h1, h2⟩ := openCore_ok_iff.2 ⟨_, _, _, _, ho⟩
  obtain ⟨l', t, m, hl', ht, htree, hfits, -, -, -, -, hs⟩ :=
    heldBy_loaded (encodeFile_held hst) cmp hcmp' st.file.io
  rw [hdev] at h1 h2
  rw [h1] at hl'
  cases hl'
  rw [h2] at hs
  have hwd : (openHandle cmp h flags {} st).2.world.dev h = Dev.ofBytes (encodeFile w kids) := by
    rw [hworld, (ensureOpen_isOpen _ _).2.2.1, hdev]
  exact ⟨t, _, m, by rw [hfile]; exact ht, by rw [hwd, hfile]; rfl, htree, hfits, hs⟩

theorem namedFrom_cons {t : Tree} {nameOf : DirEntry → Bytes} {it c x : Item} {i : Nat}
    {names : List Bytes} (h1 : getSubItem t it i = .ok c) (h2 : NamedFrom t nameOf c names x) :
    NamedFrom t nameOf it (nameOf c.entry :: names) x := by
  have := NamedFrom.trans (NamedFrom.sub (nameOf := nameOf) .here h1) h2
  simpa using this

/-- What is found by names, one after the other, is under these names. -/
theorem walk_named {e : Endian} {t : Tree} {f : FileCtx} {α : Type} {enc : Nat → List α}
    {cmp : List α → Bytes → Option Bool} (hcmp : ComparesText e enc cmp) :
    ∀ (names : List (List Nat)) (it x : Item) (doc : Doc), Shows t f it doc → TextNames e doc →
      (∀ cs ∈ names, NameText cs) →
      Spec.walk (getSubItemByName cmp t) it (names.map (·.flatMap enc)) = .ok (some x) →
      NamedFrom t (·.name) it (names.map (storedName e)) x
  | [], it, x, _, _, _, _, h => by
    cases h
    exact .here
  | cs :: names, it, x, doc, hs, hd, hn, h => by
    have hcs := hn cs (by simp)
    obtain ⟨g1, g2⟩ := shown_name hs hd hcs
    rw [List.map_cons, Spec.walk] at h
    split at h
    · cases h
    · by_cases hex : ∃ kids k, doc = .storage kids ∧ (storedName e cs, k) ∈ kids
      · obtain ⟨kids, k, rfl, hm⟩ := hex
        obtain ⟨c, hsc, hcn, hc⟩ := g1 kids k rfl hm
        have hc := hc α enc cmp hcmp
        rw [hc] at h
        obtain ⟨i, hi, _⟩ := ((C21_name_lookup cmp t it _).1 c).1 hc
        rw [List.map_cons, ← hcn]
        exact namedFrom_cons hi (walk_named hcmp names c x k hsc (textNames_kid hd hm)
          (fun y hy => hn y (by simp [hy])) h)
      · rw [g2 (fun kids k he hm => hex ⟨kids, k, he, hm⟩) α enc cmp hcmp] at h
        cases h

theorem textNames_comparable {u : Libuna} (hu : IsLibuna u) {e : Endian} {kids : List (Bytes × Doc)}
    (hn : TextNames e (.storage kids)) : ∀ n ∈ namesOfKids kids, Comparable (u.cmp8 e) n := by
  intro n hm
  obtain ⟨path, d, hd⟩ := namesOfKids_docAt kids n hm
  obtain ⟨cs, h1, rfl⟩ := hn.text path n d hd
  exact text_comparable hu h1

/-! ### C91 -/

/-- C91, navigation: from the root item on, an item whose name and the names of the items on the way
  to it are those of the path to a part of the document has the times stored for that part, whatever the
  names. -/
theorem C91_times (w : Writer) (kids : List (Bytes × Doc)) (hst : Storable w kids)
    (hdist : ∀ path ks, DocAt (.storage kids) path (.storage ks) → (ks.map (·.1)).Nodup)
    (cmp : Bytes → Bytes → Option Bool) (hcmp : ∀ n ∈ namesOfKids kids, Comparable cmp n)
    (st : FileState) (hr : Reachable cmp st) (hclosed : st.file.handle = none)
    (h : HandleId) (hdev : st.world.dev h = Dev.ofBytes (encodeFile w kids))
    (flags : Nat) (hfl : flags % 4 = 1) :
    (openHandle cmp h flags {} st).1 = .ok () ∧
    ∃ t root, (openHandle cmp h flags {} st).2.file.tree = some t ∧ rootItem (some t) = some root ∧
      ∀ path d i it, PlacedAt (.storage kids) path d i → NamedFrom t (·.name) root path it →
        itemCreationTime it = (w.marks.entry i).created ∧
        itemModificationTime it = (w.marks.entry i).modified := by
  obtain ⟨h1, t, f, m, h2, h3, h4, h5, h6⟩ := opened_tree hst hcmp hr hclosed hdev hfl
  exact ⟨h1, t, _, h2, rfl, fun path d i it hp hn => placed_times hst h4 hdist hp hn⟩

/-- C91, lookup by a path of names in UTF-8 or UTF-16: the item found has the times stored for the part
  at the path. -/
theorem C91_times_by_path {u : Libuna} (hu : IsLibuna u) (w : Writer) (kids : List (Bytes × Doc))
    (hst : Storable w kids) (hn : TextNames w.order (.storage kids))
    (st : FileState) (hr : Reachable (u.cmp8 w.order) st) (hclosed : st.file.handle = none)
    (h : HandleId) (hdev : st.world.dev h = Dev.ofBytes (encodeFile w kids))
    (flags : Nat) (hfl : flags % 4 = 1) :
    (openHandle (u.cmp8 w.order) h flags {} st).1 = .ok () ∧
    ∃ t root, (openHandle (u.cmp8 w.order) h flags {} st).2.file.tree = some t ∧
      rootItem (some t) = some root ∧
      ∀ (names : List (List Nat)) d i, (∀ cs ∈ names, NameText cs ∧ 0x5c ∉ cs) →
        PlacedAt (.storage kids) (names.map (storedName w.order)) d i → ∃ x,
        itemByPath u.dec8 (u.cmp8 w.order) (some t) (some root) (pathText encode8 names) =
          .ok (some x) ∧
        itemByPath u.dec16 (u.cmp16 w.order) (some t) (some root) (pathText encode16 names) =
          .ok (some x) ∧
        itemCreationTime x = (w.marks.entry i).created ∧
        itemModificationTime x = (w.marks.entry i).modified := by
  obtain ⟨h1, t, f, m, h2, h3, h4, h5, h6⟩ :=
    opened_tree hst (textNames_comparable hu hn) hr hclosed hdev hfl
  have hbo : f.io.byteOrder = w.order := by
    have := opened_byteOrder hr hdev (encodeFile_layout hst).fits (encodeFile_layout hst).header h1
    rw [← this]
    unfold OleFile.ctx at h3
    split at h3
    · cases h3; rfl
    · cases h3
  refine ⟨h1, t, _, h2, rfl, fun names d i hpn hp => ?_⟩
  obtain ⟨x, g1, g2, g3, g4⟩ := (shows_text hu h6 hn hbo).found names d hpn (placedAt_docAt hp)
  refine ⟨x, g1, g2, ?_⟩
  rw [itemByPath_walk hu.dec8 _ t _ hpn] at g1
  exact placed_times hst h4 hn.distinct hp
    (walk_named (fun a b ha hb => (hu.cmp8 _ a b ha hb).1) names _ x _ h6 hn (fun cs hc => (hpn cs hc).1) g1)

/-- C91, mounted: the attributes of the mounted parts have the stored modification times. -/
theorem C91_mounted_times (wr : Writer) (kids : List (Bytes × Doc)) (hst : Storable wr kids)
    (htime : ∀ i ≤ countKids kids, TimeFits (wr.marks.entry i).modified)
    (cmp : Bytes → Bytes → Option Bool) (hcmp : ∀ n ∈ namesOfKids kids, Comparable cmp n)
    (st : FileState) (hr : Reachable cmp st) (hclosed : st.file.handle = none)
    (h : HandleId) (hdev : st.world.dev h = Dev.ofBytes (encodeFile wr kids))
    (flags : Nat) (hfl : flags % 4 = 1) :
    (openHandle cmp h flags {} st).1 = .ok () ∧
    ∃ t f, (openHandle cmp h flags {} st).2.file.tree = some t ∧
      (openHandle cmp h flags {} st).2.file.ctx
        ((openHandle cmp h flags {} st).2.world.dev h) = some f ∧
      ∀ (env : FuseEnv) (chars : Bytes → List Nat) (mname : Bytes → Bytes), env.tree = t → env.ctx = f →
        IsUtf8 env.k → Mountable env chars (.storage kids) →
        (∀ path n d, DocAt (.storage kids) (path ++ [n]) d →
            fromItemPath env.k (utf8 env.k (chars n)) = .ok (mname n)) →
          PresentsTimes env mname (.storage kids) fun i => (wr.marks.entry i).modified := by
  obtain ⟨h1, t, f, m, h2, h3, h4, h5, h6⟩ := opened_tree hst hcmp hr hclosed hdev hfl
  refine ⟨h1, t, f, h2, h3, ?_⟩
  intro env chars mname e1 e2 hk hm hnames path d i hp
  subst e1 e2
  have hd := placedAt_docAt hp
  have hmap : path.map mname = path.map fun n => mountedName env.k (chars n) := by
    refine List.map_congr_left fun n hn => ?_
    obtain ⟨q, x, hx⟩ := docAt_prefix hd n hn
    have g1 := hnames q n x hx
    rw [(mountedName_eq hk (hm.name q n x hx).1 (mountable_short hm hx n (by simp))).1] at g1
    exact (Res.ok.inj g1).symm
  obtain ⟨e, q, g1, g2, g3, g4⟩ := docAt_lookup hk hm h6 hd
  obtain ⟨-, ht⟩ := placed_times hst h4 hm.distinct hp g4
  have hin := (C16_no_item_twice _ cmp (entriesOfSlots_nodup _) _ m h4).1 q _ g3
  have hi : i ≤ countKids kids := by
    have hid := placed_id hst h4 hm.distinct hp _ g4
    obtain ⟨i', s, hs, hty, he⟩ := entriesOfSlots_mem.1 hin
    rw [he] at hid
    have hid : i' = i := hid
    rw [← hid]
    exact (slotsOfFile_marks hs hty).1
  have h64 := (hst.marks.entry i).modified
  have hfit := htime i hi
  rw [← ht] at h64 hfit
  have hmt : ∃ t, mountTime e.item.entry.modified = .ok t := by
    rcases hfit with h0 | ⟨hlo, hhi⟩
    · exact ⟨0, by rw [h0]; rfl⟩
    · by_cases h0 : e.item.entry.modified = 0
      · exact ⟨0, by rw [h0]; rfl⟩
      · exact ⟨_, C54_mounted_time_partial _ h64 h0 hlo hhi⟩
  obtain ⟨tm, hmt⟩ := hmt
  have hstat := entryStat_ok (env := env) hmt (Nat.lt_trans (h5 _ hin).size (by decide))
  have hget : fuseGetattr env (mountPath (path.map mname)) = .ok (.ok (statOf env e)) := by
    rw [hmap]
    refine getattr_of g1 ?_
    unfold statOf
    rw [hstat]
  obtain ⟨e', tm', a1, a2, a3, a4, a5, a6, _, a7, a8, a9⟩ := C65_attributes env _ _ hget
  rw [hmap, g1] at a1
  cases a1
  refine ⟨_, hget, a7, a8, ?_⟩
  dsimp only
  rw [← ht]
  have key := fun h0 h1970 => C65_modification_time_partial env _ _ e hget (by rw [hmap]; exact g1) h64 h0 h1970
  refine ⟨?_, fun a b => (key a b).1, fun a b => (key a b).2.1, fun a b => (key a b).2.2⟩
  intro h0
  rw [a9]
  rw [h0] at a2
  cases a2
  exact C65_unset _

/-! ### Examples -/

/-- The number of the part as the time of its creation and as many tenths of a microsecond after noon of
  1 January 2020 as that of its modification. -/
def datedMarks : Marks :=
  { entry := fun i => { created := i % 256, modified := 132223536000000000 + i % 256 } }

theorem datedMarks_fits : datedMarks.Fits where
  classId := rfl
  minor := by decide
  major := by decide
  reserved := rfl
  transaction := rfl
  entry i :=
    { color := show 1 < 2 ^ 8 by decide
      classId := rfl
      flags := show 0 < 2 ^ 32 by decide
      created := by show i % 256 < _; omega
      modified := by show 132223536000000000 + i % 256 < _; omega
      reserved := show 0 < 2 ^ 32 by decide }

theorem datedDoc_storable (e : Endian) : Storable ⟨e, 9, 6, 4096, datedMarks⟩ (unicodeDoc e) := by
  have hs := unicodeDoc_storable e
  refine (C60_storable e datedMarks datedMarks_fits hs.nonempty hs.names ?_).2 ?_
  · simp [unicodeDoc, countKids, Doc.count]
  · simp [unicodeDoc, streamsOfKids, Doc.streams]

theorem datedDoc_placed (e : Endian) : PlacedAt (.storage (unicodeDoc e))
    ([[0xc4], [0x1f600]].map (storedName e)) (.stream [4, 5]) 4 :=
  .sub (pre := [_]) (post := []) (.sub (path := []) (pre := [_]) (post := []) .here)

/-- The stream that is found by the path `\\Ä\\😀` was modified at that time (C91_times_by_path). -/
example (e : Endian) : ∃ st, (openHandle (plainUna.cmp8 e) (.user 1) 1 {} st).1 = .ok () ∧
    ∃ t root x, (openHandle (plainUna.cmp8 e) (.user 1) 1 {} st).2.file.tree = some t ∧
      rootItem (some t) = some root ∧
      itemByPath plainUna.dec8 (plainUna.cmp8 e) (some t) (some root)
        [0x5c, 0xc3, 0x84, 0x5c, 0xf0, 0x9f, 0x98, 0x80] = .ok (some x) ∧
      itemCreationTime x = 4 ∧ itemModificationTime x = 132223536000000004 := by
  have hr : Reachable (plainUna.cmp8 e) ⟨OleFile.new, { sampleWorld with
      dev := fun _ => Dev.ofBytes (encodeFile ⟨e, 9, 6, 4096, datedMarks⟩ (unicodeDoc e)) }⟩ :=
    ⟨_, [], ⟨rfl, rfl⟩, rfl⟩
  obtain ⟨h1, t, root, h2, h3, h4⟩ := C91_times_by_path plainUna_isLibuna ⟨e, 9, 6, 4096, datedMarks⟩
    (unicodeDoc e) (datedDoc_storable e) (unicodeDoc_text e) _ hr rfl (.user 1) rfl 1 rfl
  obtain ⟨x, g1, -, g2, g3⟩ := h4 [[0xc4], [0x1f600]] _ _ (by decide) (datedDoc_placed e)
  exact ⟨_, h1, t, root, x, h2, h3, g1, g2, g3⟩

end Olecf.Props
