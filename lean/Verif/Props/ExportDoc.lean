import Verif.Props.Export
import Verif.Props.RoundTrip

/-
  C61: an export is an image of the document in the file.
-/

namespace Olecf.Props
open Olecf.Spec

/-- The file system is tidy after an export, and if it succeeded the export directory is there. -/
theorem exportFile_tidy {env : ExportEnv} (hs : NoSeparator env.sanitize) (fuel : Nat)
    (dir : Path) (w : Disk) (ht : Tidy w.fs) :
    Tidy (exportFile env fuel dir w).1.fs ∧
    ((exportFile env fuel dir w).2 = .ok () → (exportFile env fuel dir w).1.fs.dir dir = true) := by
  unfold exportFile fsMkdir
  rcases fsOp_cases env w fun fs =>
      if fs.has dir ∨ dir = [] ∨ ¬ fs.dir dir.dropLast then none else some ((), fs.addDir dir)
    with h | ⟨a, fs, _, h1, h2⟩
  · rw [h]; exact ⟨ht, fun h => by cases h⟩
  · rw [h2]
    simp only [diskThen]
    split at h1
    · cases h1
    · rename_i hc
      simp only [not_or, Bool.not_eq_true, Bool.not_eq_false] at hc
      simp only [Option.some.injEq, Prod.mk.injEq] at h1
      have hg := mkdir_tidy ht hc.1 hc.2.2
      rw [h1.2] at hg
      have hd : fs.dir dir = true := by rw [← h1.2]; simp [Fs.addDir]
      have := exportLoop_grown (env := env) (f := exportItem env fuel dir) (dir := dir)
        ⟨none, env.tree.root⟩
        (fun sub index w => exportItem_grown hs fuel dir sub index w)
        (numberOfSubItems env.tree ⟨none, env.tree.root⟩) 0 ⟨fs, w.tick + 1⟩ hg.1 hd
      exact ⟨this.1, fun _ => this.2.dirs _ hd⟩

/-! ### Paths of names in the document and in the hierarchy of items -/

/-- An item found by file names shows the part of the document at a path with these file names. -/
theorem named_docAt {t : Tree} {f : FileCtx} {g : Bytes → Bytes} {start : Item} {doc : Doc}
    (hs : Shows t f start doc) {ns : List Bytes} {it : Item}
    (h : NamedFrom t (fun d => g d.name) start ns it) :
    ∃ path d, path.map g = ns ∧ DocAt doc path d ∧ Shows t f it d ∧
      (ns ≠ [] → ∃ p, path = p ++ [it.entry.name]) := by
  induction h with
  | here => exact ⟨[], doc, rfl, .here, hs, fun h => absurd rfl h⟩
  | @sub ns it s i _ hi ih =>
    obtain ⟨path, d, h1, h2, h3, _⟩ := ih
    cases h3 with
    | stream _ h0 _ _ =>
      obtain ⟨e, he, _⟩ := getSubItem_ok.1 hi
      have := (List.getElem?_eq_some_iff.1 he).1
      exact absurd this (by unfold numberOfSubItems at h0; omega)
    | @storage _ kids kids' items ht hn hg hp hl hname hsub =>
      have hc := (hg i s).1 hi
      have hlt : i < kids'.length := by
        rw [← hl]; exact (List.getElem?_eq_some_iff.1 hc).1
      have hk := List.getElem?_eq_getElem hlt
      have hnm := hname i _ _ hc hk
      refine ⟨path ++ [s.entry.name], kids'[i].2, by simp [h1], ?_, hsub i _ _ hc hk,
        fun _ => ⟨_, rfl⟩⟩
      refine .sub h2 (hp.mem_iff.1 ?_)
      rw [hnm]
      exact List.getElem_mem hlt

/-- The part of the document at a path is shown by an item found by the file names of the path. -/
theorem docAt_named {t : Tree} {f : FileCtx} {g : Bytes → Bytes} {start : Item} {doc : Doc}
    (hs : Shows t f start doc) {path : List Bytes} {d : Doc} (h : DocAt doc path d) :
    ∃ it, NamedFrom t (fun d => g d.name) start (path.map g) it ∧ Shows t f it d := by
  induction h with
  | here => exact ⟨start, .here, hs⟩
  | @sub path kids n d _ hm ih =>
    obtain ⟨it, h1, h2⟩ := ih
    cases h2 with
    | @storage _ _ kids' items ht hn hg hp hl hname hsub =>
      obtain ⟨i, hi, he⟩ := List.mem_iff_getElem.1 (hp.mem_iff.2 hm)
      have hk := List.getElem?_eq_getElem hi
      have hc := List.getElem?_eq_getElem (show i < items.length by omega)
      have hnm := hname i _ _ hc hk
      have hsh := hsub i _ _ hc hk
      rw [he] at hnm hsh
      refine ⟨_, ?_, hsh⟩
      have := NamedFrom.sub (nameOf := fun d => g d.name) h1 ((hg i _).2 hc)
      simp only [hnm] at this
      simpa using this

/-- What is known of an export of a file that holds a document, and of the file names `g` that it uses. -/
structure ExportReady (env : ExportEnv) (g : Bytes → Bytes) (doc : Doc) (fuel : Nat) : Prop where
  tree : ∃ (list : List DirEntry) (cmp : Bytes → Bytes → Option Bool) (m : List Nat),
    (list.map (·.id)).Nodup ∧ (createTree list cmp).res = .ok (some (env.tree, m)) ∧
    (∀ d ∈ list, EntryFits d) ∧ list.length ≤ fuel
  ctx : WellFormedCtx env.ctx
  sec : 4 ≤ env.ctx.io.sectorSize
  short : 4 ≤ env.ctx.io.shortSectorSize
  dev : ∃ content, env.ctx.dev = Dev.ofBytes content
  shows : Shows env.tree env.ctx ⟨none, env.tree.root⟩ doc
  size : ∀ p it, itemAt env.tree p = some it → p ≠ [] → it.entry.type ≠ 2 → it.entry.size = 0
  sep : NoSeparator env.sanitize
  good : GoodNames g doc
  name : ∀ (d : DirEntry) path x, DocAt doc (path ++ [d.name]) x →
    (env.utf8Name d).bind env.sanitize = some (g d.name)

/-- What is known of the items of such an export. -/
structure ItemsReady (env : ExportEnv) (g : Bytes → Bytes) (doc : Doc) : Prop where
  exportable : Exportable env (fun d => g d.name) ⟨none, env.tree.root⟩
  fits : ∀ p it, itemAt env.tree p = some it → ItemFits env.ctx it.entry
  zero : ∀ {names it}, NamedFrom env.tree (fun d => g d.name) ⟨none, env.tree.root⟩ names it →
    names ≠ [] → it.entry.type ≠ 2 → it.entry.size = 0
  data : ∀ {names it d data}, NamedFrom env.tree (fun d => g d.name) ⟨none, env.tree.root⟩ names it →
    names ≠ [] → Shows env.tree env.ctx it d → WholeData env.ctx it.entry data → data = d.data

theorem export_named_item {t : Tree} {nameOf : DirEntry → Bytes} {names : List Bytes} {it : Item}
    (h : NamedFrom t nameOf ⟨none, t.root⟩ names it) :
    ∃ p, p.length = names.length ∧ itemAt t p = some it := by
  induction h with
  | here => exact ⟨[], rfl, rfl⟩
  | @sub names it s i _ h2 ih =>
    obtain ⟨p, hl, hp⟩ := ih
    exact ⟨p ++ [i], by simp [hl], (itemFrom_snoc _ p _ i _).2 ⟨it, hp, h2⟩⟩

theorem ExportReady.items {env : ExportEnv} {g : Bytes → Bytes} {doc : Doc} {fuel : Nat}
    (hready : ExportReady env g doc fuel) : ItemsReady env g doc := by
  obtain ⟨⟨list, cmp, m, hnd, htree, hfits, _⟩, hctx, hsec, hshort, ⟨content, hdev⟩, hshow, hsize, hs, hg,
    hname⟩ := hready
  have hmem := (C16_no_item_twice list cmp hnd _ m htree).1
  -- the data of an item that shows a part
  have hzero : ∀ {names it}, NamedFrom env.tree (fun d => g d.name) ⟨none, env.tree.root⟩ names it →
      names ≠ [] → (it.entry.type ≠ 2 → it.entry.size = 0) := by
    intro names it h hn hty
    obtain ⟨p, hl, hp⟩ := export_named_item h
    exact hsize p it hp (by rintro rfl; exact hn (List.length_eq_zero_iff.1 hl.symm)) hty
  have hdata : ∀ {names it d data}, NamedFrom env.tree (fun d => g d.name) ⟨none, env.tree.root⟩ names it →
      names ≠ [] → Shows env.tree env.ctx it d → WholeData env.ctx it.entry data → data = d.data := by
    intro names it d data h hn hsh hw
    have hz := hzero h hn
    unfold WholeData at hw
    cases hsh with
    | @stream _ dat h2 _ hsz hr =>
      show data = dat
      split at hw
      · rename_i h0
        rw [hw]
        exact (List.length_eq_zero_iff.1 (by omega)).symm
      · have hlt := (hfits _ (hmem _ _ (export_named_item h).choose_spec.2)).size
        have := hr 0 it.entry.size (by omega)
        rw [show ((0 : Nat) : Int) = 0 from rfl, hw, hsz, List.drop_zero, List.take_length] at this
        injection this
    | storage h1 =>
      rw [if_pos (hz (by rcases h1 with h | h <;> rw [h] <;> decide))] at hw
      exact hw
  have hx : Exportable env (fun d => g d.name) ⟨none, env.tree.root⟩ := by
    refine ⟨?_, ?_, ?_, ?_⟩
    · intro names it h hn
      obtain ⟨path, d, _, h2, _, h4⟩ := named_docAt hshow h
      obtain ⟨p, rfl⟩ := h4 hn
      exact hname _ _ _ h2
    · intro names it h hn
      obtain ⟨path, d, _, h2, _, h4⟩ := named_docAt hshow h
      obtain ⟨p, rfl⟩ := h4 hn
      exact hg.plain _ _ _ h2
    · intro names it h i j a b ha hb hab
      obtain ⟨path, d, _, h2, h3, _⟩ := named_docAt hshow h
      cases h3 with
      | stream _ h0 _ _ =>
        obtain ⟨e, he, _⟩ := getSubItem_ok.1 ha
        have := (List.getElem?_eq_some_iff.1 he).1
        exact absurd this (by unfold numberOfSubItems at h0; omega)
      | @storage _ kids kids' items _ _ hgs hp hl hnm _ =>
        have hnd := hg.distinct _ _ h2
        have hnd' : (kids'.map fun k => g k.1).Nodup := (hp.map _).nodup_iff.2 hnd
        have key : ∀ (i : Nat) (a : Item), getSubItem env.tree it i = .ok a →
            (kids'.map fun k => g k.1)[i]? = some (g a.entry.name) := by
          intro i a ha
          have hc := (hgs i a).1 ha
          have hlt : i < kids'.length := by rw [← hl]; exact (List.getElem?_eq_some_iff.1 hc).1
          have hk := List.getElem?_eq_getElem hlt
          rw [List.getElem?_map, hk, Option.map_some, hnm i _ _ hc hk]
        have h1 := key i a ha
        have h2 := key j b hb
        obtain ⟨hi, e1⟩ := List.getElem?_eq_some_iff.1 h1
        obtain ⟨hj, e2⟩ := List.getElem?_eq_some_iff.1 h2
        exact (List.Nodup.getElem_inj_iff hnd').1 (e1.trans (hab.trans e2.symm))
    · intro names it h hn
      obtain ⟨path, d, _, h2, h3, _⟩ := named_docAt hshow h
      have hz := hzero h hn
      cases h3 with
      | stream _ _ _ hr => exact Or.inr fun cur size hsz => ⟨_, hr cur size hsz⟩
      | storage h1 => exact Or.inl (hz (by rcases h1 with h | h <;> rw [h] <;> decide))
  have hfit : ∀ p it, itemAt env.tree p = some it → ItemFits env.ctx it.entry := by
    intro p it hp
    have he := hfits _ (hmem p it hp)
    refine ⟨he, ?_⟩
    have := he.size
    have hu : 4 ≤ unitOf env.ctx it.entry := by unfold unitOf; split <;> assumption
    have := Nat.mul_le_mul_right 2147483647 hu
    omega
  exact ⟨hx, hfit, hzero, hdata⟩

/-- The export of a hierarchy of items that shows a document. -/
theorem export_shown {env : ExportEnv} {g : Bytes → Bytes} {doc : Doc} {fuel : Nat}
    (hready : ExportReady env g doc fuel) (hf : ∀ n, env.fault n = false) {dir : Path} {w : Disk}
    (ht : Tidy w.fs) (hno : w.fs.has dir = false) (hparent : w.fs.dir dir.dropLast = true) :
    (exportFile env fuel dir w).2 = .ok () ∧
    ImageAt g doc dir w.fs (exportFile env fuel dir w).1.fs := by
  obtain ⟨hx, hfit, _, hdata⟩ := hready.items
  obtain ⟨⟨list, cmp, m, hnd, htree, _, hfuel⟩, hctx, _, _, ⟨content, hdev⟩, hshow, _, hs, _, _⟩ := hready
  obtain ⟨w', h1, h2, h3⟩ := C59_export_complete_partial hnd htree hs hf hctx hdev hx hfit hfuel ht
    hno hparent
  have htidy := exportFile_tidy hs fuel dir w ht
  have hgrown := C58_export_stays_inside hs fuel dir w ht
  rw [h1] at htidy hgrown ⊢
  have hfiles : ∀ path d, DocAt doc path d → path ≠ [] →
      w'.fs.file (dir ++ path.map g ++ [dataName]) = some d.data := by
    intro path d hd hp
    obtain ⟨it, j1, j2⟩ := docAt_named (g := g) hshow hd
    have hne : path.map g ≠ [] := by simpa using hp
    obtain ⟨data, j3, j4⟩ := h2 _ _ j1 hne
    rw [j3, hdata j1 hne j2 j4]
  refine ⟨rfl, ?_, hfiles, ?_, hgrown⟩
  · intro path d hd
    by_cases hp : path = []
    · subst hp
      simpa using htidy.2 rfl
    · have := htidy.1.files _ (Option.isSome_iff_exists.2 ⟨_, hfiles path d hd hp⟩)
      rwa [List.dropLast_concat] at this
  · intro q hq hnq
    rcases h3 q hq hnq with rfl | ⟨names, it, j1, j2, j3⟩
    · exact ⟨[], doc, .here, Or.inl (by simp)⟩
    · obtain ⟨path, d, rfl, k2, _, _⟩ := named_docAt hshow j1
      refine ⟨path, d, k2, ?_⟩
      rcases j3 with rfl | rfl
      · exact Or.inl rfl
      · exact Or.inr ⟨by simpa using j2, rfl⟩

/-- A file that holds a document, opened by a file object, is ready for an export. -/
theorem held_ready {content : Bytes} {hd : HeaderFields} {slots : List SlotFields} {doc : Doc}
    (hf : HeldBy content hd slots doc) (cmp : Bytes → Bytes → Option Bool)
    (hcmp : ∀ n ∈ (entriesOfSlots slots).map (·.name), Comparable cmp n)
    (hshort : 2 ≤ hd.shortExp)
    (hsize : ∀ d ∈ entriesOfSlots slots, d.id ≠ 0 → d.type ≠ 2 → d.size = 0)
    (st : FileState) (hst : Reachable cmp st) (hclosed : st.file.handle = none)
    (h : HandleId) (hdev : st.world.dev h = Dev.ofBytes content)
    (flags : Nat) (hfl : flags % 4 = 1) :
    (openHandle cmp h flags {} st).1 = .ok () ∧
    ∃ t f, (openHandle cmp h flags {} st).2.file.tree = some t ∧
      (openHandle cmp h flags {} st).2.file.ctx
        ((openHandle cmp h flags {} st).2.world.dev h) = some f ∧
      ∀ (env : ExportEnv) (g : Bytes → Bytes) (fuel : Nat),
        env.tree = t → env.ctx = f → NoSeparator env.sanitize →
        GoodNames g doc →
        (∀ (d : DirEntry) path x, DocAt doc (path ++ [d.name]) x →
          (env.utf8Name d).bind env.sanitize = some (g d.name)) →
        (entriesOfSlots slots).length ≤ fuel → ExportReady env g doc fuel := by
  have hok := (C47_document_shown ⟨hd, slots, hf, rfl⟩ cmp hcmp st hst hclosed h hdev flags hfl).1
  refine ⟨hok, ?_⟩
  obtain ⟨l, hdr, t0, list, tree, ho, hfile, hworld⟩ := openHandle_loaded (reachable_inv hst).closed hok
  obtain ⟨h1, h2⟩ := openCore_ok_iff.2 ⟨_, _, _, _, ho⟩
  obtain ⟨l', t, m, hl', ht, htree, hfits, hwf, hsec, hse, hroot, hs⟩ := heldBy_loaded hf cmp hcmp st.file.io
  rw [hdev] at h1 h2
  rw [h1] at hl'
  cases hl'
  rw [h2] at hs hwf hsec hse
  have hwd : (openHandle cmp h flags {} st).2.world.dev h = Dev.ofBytes content := by
    rw [hworld, (ensureOpen_isOpen _ _).2.2.1, hdev]
  have hnd := entriesOfSlots_nodup slots
  have huniq := (C16_no_item_twice _ cmp hnd _ m htree).2
  have hmem := (C16_no_item_twice _ cmp hnd _ m htree).1
  refine ⟨t, _, by rw [hfile]; exact ht, by rw [hwd, hfile]; rfl, ?_⟩
  intro env g fuel e1 e2 hsep hg hname hfuel
  subst e1
  refine ⟨⟨_, cmp, m, hnd, htree, hfits, hfuel⟩, by rw [e2]; exact hwf,
    by rw [e2]; exact Nat.le_trans (by decide) hsec,
    by rw [e2]; exact Nat.le_trans (Nat.pow_le_pow_right (n := 2) (by decide) hshort) (Nat.le_of_eq hse.symm),
    ⟨content, by rw [e2]⟩, by rw [e2]; exact hs, ?_, hsep, hg, hname⟩
  intro p it hp hne hty
  refine hsize _ (hmem p it hp) ?_ hty
  intro h0
  exact hne (huniq p [] it ⟨none, env.tree.root⟩ hp rfl (by rw [h0]; exact hroot.symm))

/-- C61: the export of a file that holds a document is an image of the document: a directory for every
  part, at the path of the names, with the data of the part, and nothing else.  The file was opened
  by a file object, whatever was done with it before.  It is assumed that names become distinct file
  names, that only the root among the storages has a size, that short sectors are not smaller than
  4 bytes, and that no operation on the target file system fails. -/
theorem C61_export_is_image {content : Bytes} {hd : HeaderFields} {slots : List SlotFields} {doc : Doc}
    (hf : HeldBy content hd slots doc) (cmp : Bytes → Bytes → Option Bool)
    (hcmp : ∀ n ∈ (entriesOfSlots slots).map (·.name), Comparable cmp n)
    (hshort : 2 ≤ hd.shortExp)
    (hsize : ∀ d ∈ entriesOfSlots slots, d.id ≠ 0 → d.type ≠ 2 → d.size = 0)
    (st : FileState) (hst : Reachable cmp st) (hclosed : st.file.handle = none)
    (h : HandleId) (hdev : st.world.dev h = Dev.ofBytes content)
    (flags : Nat) (hfl : flags % 4 = 1) :
    (openHandle cmp h flags {} st).1 = .ok () ∧
    ∃ t f, (openHandle cmp h flags {} st).2.file.tree = some t ∧
      (openHandle cmp h flags {} st).2.file.ctx
        ((openHandle cmp h flags {} st).2.world.dev h) = some f ∧
      ∀ (env : ExportEnv) (g : Bytes → Bytes) (fuel : Nat) (dir : Path) (w : Disk),
        env.tree = t → env.ctx = f → NoSeparator env.sanitize → (∀ n, env.fault n = false) →
        GoodNames g doc →
        (∀ (d : DirEntry) path x, DocAt doc (path ++ [d.name]) x →
          (env.utf8Name d).bind env.sanitize = some (g d.name)) →
        (entriesOfSlots slots).length ≤ fuel → Tidy w.fs → w.fs.has dir = false →
        w.fs.dir dir.dropLast = true →
        (exportFile env fuel dir w).2 = .ok () ∧
        ImageAt g doc dir w.fs (exportFile env fuel dir w).1.fs := by
  obtain ⟨h1, t, f, h2, h3, h4⟩ := held_ready hf cmp hcmp hshort hsize st hst hclosed h hdev flags hfl
  refine ⟨h1, t, f, h2, h3, ?_⟩
  intro env g fuel dir w e1 e2 hsep hfault hg hname hfuel htidy hno hparent
  exact export_shown (h4 env g fuel e1 e2 hsep hg hname hfuel) hfault htidy hno hparent

/-! ### Files of the writer -/

mutual
theorem slotsOf_size (w : Writer) (doc : Doc) : ∀ l s i next name,
    ∀ x ∈ slotsOf w l s i next name doc, x.type = 2 ∨ x.size = 0 := by
  intro l s i next name x hx
  match doc with
  | .stream data =>
    rw [slotsOf, List.mem_singleton] at hx
    exact Or.inl (by rw [hx]; rfl)
  | .storage kids =>
    rw [slotsOf, List.mem_cons] at hx
    rcases hx with rfl | hx
    · exact Or.inr rfl
    · exact slotsOfKids_size w kids _ _ _ x hx

theorem slotsOfKids_size (w : Writer) (kids : List (Bytes × Doc)) : ∀ l s i,
    ∀ x ∈ slotsOfKids w l s i kids, x.type = 2 ∨ x.size = 0 := by
  intro l s i x hx
  match kids with
  | [] => cases hx
  | (n, d) :: r =>
    rw [slotsOfKids, List.mem_append] at hx
    rcases hx with hx | hx
    · exact slotsOf_size w d _ _ _ _ _ x hx
    · exact slotsOfKids_size w r _ _ _ x hx
end

theorem kid_names_mem {n : Bytes} {d : Doc} : ∀ {kids : List (Bytes × Doc)}, (n, d) ∈ kids →
    n ∈ namesOfKids kids ∧ ∀ m ∈ d.names, m ∈ namesOfKids kids
  | [], h => by cases h
  | (n', d') :: r, h => by
    rw [namesOfKids]
    rcases List.mem_cons.1 h with h | h
    · cases h
      exact ⟨List.mem_cons_self, fun m hm => List.mem_cons_of_mem _ (List.mem_append_left _ hm)⟩
    · obtain ⟨h1, h2⟩ := kid_names_mem h
      exact ⟨List.mem_cons_of_mem _ (List.mem_append_right _ h1),
        fun m hm => List.mem_cons_of_mem _ (List.mem_append_right _ (h2 m hm))⟩

/-- The names on the paths of a document are its names. -/
theorem docAt_names {doc : Doc} {path : List Bytes} {x : Doc} (h : DocAt doc path x) :
    (∀ n ∈ path, n ∈ doc.names) ∧ ∀ n ∈ x.names, n ∈ doc.names := by
  induction h with
  | here => exact ⟨fun _ h => (by cases h), fun _ h => h⟩
  | @sub path kids n d _ hm ih =>
    obtain ⟨h1, h2⟩ := kid_names_mem hm
    refine ⟨fun m hm => ?_, fun m hm => ih.2 m (h2 m hm)⟩
    rcases List.mem_append.1 hm with hm | hm
    · exact ih.1 m hm
    · rw [List.mem_singleton.1 hm]; exact ih.2 n h1

/-- The same for a file of the writer. -/
theorem written_ready (wr : Writer) (kids : List (Bytes × Doc)) (hst : Storable wr kids)
    (hshort : 2 ≤ wr.shortExp)
    (cmp : Bytes → Bytes → Option Bool) (hcmp : ∀ n ∈ namesOfKids kids, Comparable cmp n)
    (st : FileState) (hr : Reachable cmp st) (hclosed : st.file.handle = none)
    (h : HandleId) (hdev : st.world.dev h = Dev.ofBytes (encodeFile wr kids))
    (flags : Nat) (hfl : flags % 4 = 1) :
    (openHandle cmp h flags {} st).1 = .ok () ∧
    ∃ t f, (openHandle cmp h flags {} st).2.file.tree = some t ∧
      (openHandle cmp h flags {} st).2.file.ctx
        ((openHandle cmp h flags {} st).2.world.dev h) = some f ∧
      ∀ (env : ExportEnv) (g : Bytes → Bytes) (fuel : Nat),
        env.tree = t → env.ctx = f → NoSeparator env.sanitize →
        GoodNames g (.storage kids) →
        (∀ d : DirEntry, d.name ∈ namesOfKids kids →
          (env.utf8Name d).bind env.sanitize = some (g d.name)) →
        (namesOfKids kids).length + 1 ≤ fuel → ExportReady env g (.storage kids) fuel := by
  have hnames := slotsOfFile_names hst
  obtain ⟨h1, t, f, h2, h3, h4⟩ := held_ready (encodeFile_held hst) cmp (by
    rw [hnames]
    intro n hn
    rcases List.mem_cons.1 hn with rfl | hn
    · exact rootName_comparable _ _
    · exact hcmp n hn) hshort (by
    intro d hd h0 hty
    obtain ⟨i, s, hs, hused, rfl⟩ := entriesOfSlots_mem.1 hd
    have hs' : s ∈ slotsOfFile wr kids := List.mem_of_getElem? hs
    unfold slotsOfFile padUp at hs hs'
    rcases List.mem_append.1 hs' with hm | hm
    · rcases i with _ | i
      · exact absurd rfl h0
      · rw [List.cons_append, List.getElem?_cons_succ] at hs
        rcases List.mem_append.1 (List.mem_of_getElem? hs) with hm | hm
        · exact (slotsOfKids_size _ _ _ _ _ s hm).resolve_left hty
        · rw [(List.mem_replicate.1 hm).2]; rfl
    · rw [(List.mem_replicate.1 hm).2]; rfl) st hr hclosed h hdev flags hfl
  refine ⟨h1, t, f, h2, h3, ?_⟩
  intro env g fuel e1 e2 hsep hg hname hfuel
  refine h4 env g fuel e1 e2 hsep hg ?_ ?_
  · intro d path x hx
    exact hname d ((docAt_names hx).1 _ (by simp))
  · have := congrArg List.length hnames
    rw [List.length_map, List.length_cons] at this
    omega

/-- C61, written and exported: a document within the limits of the format that was stored as the format
  describes comes out of the export unchanged. -/
theorem C61_written_document_exported (wr : Writer) (kids : List (Bytes × Doc)) (hst : Storable wr kids)
    (hshort : 2 ≤ wr.shortExp)
    (cmp : Bytes → Bytes → Option Bool) (hcmp : ∀ n ∈ namesOfKids kids, Comparable cmp n)
    (st : FileState) (hr : Reachable cmp st) (hclosed : st.file.handle = none)
    (h : HandleId) (hdev : st.world.dev h = Dev.ofBytes (encodeFile wr kids))
    (flags : Nat) (hfl : flags % 4 = 1) :
    (openHandle cmp h flags {} st).1 = .ok () ∧
    ∃ t f, (openHandle cmp h flags {} st).2.file.tree = some t ∧
      (openHandle cmp h flags {} st).2.file.ctx
        ((openHandle cmp h flags {} st).2.world.dev h) = some f ∧
      ∀ (env : ExportEnv) (g : Bytes → Bytes) (fuel : Nat) (dir : Path) (w : Disk),
        env.tree = t → env.ctx = f → NoSeparator env.sanitize → (∀ n, env.fault n = false) →
        GoodNames g (.storage kids) →
        (∀ d : DirEntry, d.name ∈ namesOfKids kids →
          (env.utf8Name d).bind env.sanitize = some (g d.name)) →
        (namesOfKids kids).length + 1 ≤ fuel → Tidy w.fs → w.fs.has dir = false →
        w.fs.dir dir.dropLast = true →
        (exportFile env fuel dir w).2 = .ok () ∧
        ImageAt g (.storage kids) dir w.fs (exportFile env fuel dir w).1.fs := by
  obtain ⟨h1, t, f, h2, h3, h4⟩ := written_ready wr kids hst hshort cmp hcmp st hr hclosed h hdev flags hfl
  refine ⟨h1, t, f, h2, h3, ?_⟩
  intro env g fuel dir w e1 e2 hsep hfault hg hname hfuel htidy hno hparent
  exact export_shown (h4 env g fuel e1 e2 hsep hg hname hfuel) hfault htidy hno hparent

/-! ### An example -/

/-- Names of ASCII characters in UTF-16 as file names. -/
def fileNameOf (n : Bytes) : Bytes := n.filter (· ≠ 0)

theorem smallDoc_names : GoodNames fileNameOf (.storage smallDoc) := by
  have hall : ∀ path x, DocAt (.storage smallDoc) path x → ∀ kids, x = .storage kids →
      (kids.map fun k => k.1) ∈ [[[65, 0], [66, 0], [69, 0]], [[67, 0], [68, 0]], ([] : List Bytes)] := by
    intro path x h
    have : x = .storage smallDoc ∨ (∃ d, x = .stream d) ∨
        x = .storage [([67, 0], .stream [1, 2, 3]), ([68, 0], .stream [])] ∨ x = .storage [] := by
      induction h with
      | here => exact Or.inl rfl
      | sub _ hm ih =>
        rcases ih with h | ⟨d, h⟩ | h | h
        · cases h
          simp only [smallDoc, List.mem_cons, List.not_mem_nil, or_false, Prod.mk.injEq] at hm
          rcases hm with ⟨_, rfl⟩ | ⟨_, rfl⟩ | ⟨_, rfl⟩
          · exact Or.inr (Or.inl ⟨_, rfl⟩)
          · exact Or.inr (Or.inr (Or.inl rfl))
          · exact Or.inr (Or.inr (Or.inr rfl))
        · cases h
        · cases h
          simp only [List.mem_cons, List.not_mem_nil, or_false, Prod.mk.injEq] at hm
          rcases hm with ⟨_, rfl⟩ | ⟨_, rfl⟩
          · exact Or.inr (Or.inl ⟨_, rfl⟩)
          · exact Or.inr (Or.inl ⟨_, rfl⟩)
        · cases h
          cases hm
    intro kids hk
    subst hk
    rcases this with h | ⟨d, h⟩ | h | h
    · cases h; exact List.mem_cons_self
    · cases h
    · cases h; simp
    · cases h; simp
  have hnames : namesOfKids smallDoc = [[65, 0], [66, 0], [67, 0], [68, 0], [69, 0]] := by
    simp [smallDoc, namesOfKids, Doc.names]
  refine ⟨?_, ?_⟩
  · intro path n d h
    have hm : n ∈ namesOfKids smallDoc := (docAt_names h).1 n (by simp)
    rw [hnames] at hm
    have : ∀ n ∈ [[65, 0], [66, 0], [67, 0], [68, 0], [69, 0]],
      PlainName (fileNameOf n) ∧ fileNameOf n ≠ dataName := by decide
    exact this n hm
  · intro path kids h
    have hm := hall _ _ h kids rfl
    have : ∀ l ∈ [[[65, 0], [66, 0], [69, 0]], [[67, 0], [68, 0]], ([] : List Bytes)],
      (l.map fileNameOf).Nodup := by decide
    have := this _ hm
    rwa [List.map_map] at this

/-- The environment of an export of the file in `smallState`. -/
def smallEnv (t : Tree) (f : FileCtx) : ExportEnv where
  ctx := f
  tree := t
  utf8Name d := some (fileNameOf d.name)
  sanitize n := some (n.map fun c => if c = 0x2f then 0x5f else c)
  fault _ := false

theorem smallEnv_noSep (t : Tree) (f : FileCtx) : NoSeparator (smallEnv t f).sanitize := by
  intro raw name h
  cases h
  intro hm
  obtain ⟨c, _, hc⟩ := List.mem_map.1 hm
  split at hc
  · exact absurd hc (by decide)
  · rename_i hne
    exact hne hc

/-- The small document is exported (C61_written_document_exported), in both byte orders. -/
example (e : Endian) : ∃ t f,
    (openHandle cmpNone (.user 1) 1 {} (smallState e)).2.file.tree = some t ∧
    (exportFile (smallEnv t f) 6 exportPath emptyDisk).2 = .ok () ∧
    ImageAt fileNameOf (.storage smallDoc) exportPath emptyDisk.fs
      (exportFile (smallEnv t f) 6 exportPath emptyDisk).1.fs := by
  have hnames : namesOfKids smallDoc = [[65, 0], [66, 0], [67, 0], [68, 0], [69, 0]] := by
    simp [smallDoc, namesOfKids, Doc.names]
  obtain ⟨_, t, f, h1, h2, h3⟩ := C61_written_document_exported _ smallDoc (smallDoc_storable e)
    (by show 2 ≤ 6; decide) cmpNone (by
    intro n _
    exact ⟨fun _ => by simp [cmpNone], fun _ => by simp [cmpNone]⟩) (smallState e)
    ⟨smallState e, [], ⟨rfl, rfl⟩, rfl⟩ rfl (.user 1) rfl 1 rfl
  refine ⟨t, f, h1, h3 (smallEnv t f) fileNameOf 6 exportPath emptyDisk rfl rfl (smallEnv_noSep t f)
    (fun _ => rfl) smallDoc_names ?_ (by rw [hnames]; decide) emptyDisk_tidy (by decide) (by decide)⟩
  rw [hnames]
  intro d hd
  have : ∀ n ∈ [[65, 0], [66, 0], [67, 0], [68, 0], [69, 0]],
    (some (fileNameOf n)).bind (fun n => some (n.map fun c => if c = 0x2f then 0x5f else c)) =
      some (fileNameOf n) := by decide
  exact this _ hd

/-- What is in the image: the three bytes of the stream `C` of the storage `B`. -/
example (fs fs' : Fs) (h : ImageAt fileNameOf (.storage smallDoc) exportPath fs fs') :
    fs'.file (exportPath ++ [[66], [67]] ++ [dataName]) = some [1, 2, 3] :=
  h.files [[66, 0], [67, 0]] (.stream [1, 2, 3])
    (.sub (path := [[66, 0]]) (.sub (path := []) .here (List.mem_cons_of_mem _ List.mem_cons_self))
      List.mem_cons_self) (by simp)

end Olecf.Props
