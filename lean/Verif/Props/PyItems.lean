import Verif.Spec.PyItems
import Verif.Props.Py
import Verif.Props.PyApi
import Verif.Props.InfoSet
import Verif.Props.SetWrite
import Verif.Props.InfoRead

/-
  C88, C89: the items and the property sets of a document as a Python program sees them.
-/

namespace Olecf.Props
open Olecf Olecf.Spec

/-! ### Names -/

theorem setNames_eq : setNames = [summaryChars, documentSummaryChars] := rfl

theorem pySummaryName_eq : pySummaryName = summaryChars.flatMap encode8 ∧
    pyDocumentSummaryName = documentSummaryChars.flatMap encode8 := by
  constructor <;> decide +kernel

theorem pyDecode_text {py : PyCodec} (hp : IsPyCodec py) {cs : List Nat} (hc : ∀ c ∈ cs, Scalar c)
    (rest : Bytes) :
    pyDecode py (cs.flatMap encode8 ++ rest) ((cs.flatMap encode8).length + 1) = .ok (some cs) := by
  unfold pyDecode
  rw [if_neg (by rw [List.length_append]; omega), Nat.add_sub_cancel, List.take_left' rfl,
    hp.decode cs hc]

/-- The name of an item, as the string and for its class. -/
theorem named_item {env : PyEnv} (hp : IsPyCodec env.py) (hu : IsLibuna env.u) {io : IoHandle}
    {x : Item} {cs : List Nat} (hc : NameText cs) (hx : x.entry.name = storedName io.byteOrder cs)
    (hlen : (storedName io.byteOrder cs).length ≤ 128) :
    pyItemName env io x = .ok (some cs) ∧
    itemClass (pyUtf8Name env.u io) x.entry = .ok (if x.entry.type ≠ 2 then .item
      else if cs ∈ setNames then .propertySetStream else .stream) := by
  have hsc : ∀ c ∈ cs, Scalar c := fun c h => (hc.chars.2 c h).1
  have hl8 := encode8s_length cs
  have hls := storedName_length io.byteOrder cs
  have hn := stored_hasName hu hc hx
  have hn' : HasName env.u io (Item.ofEntry x.entry) cs := stored_hasName hu hc hx
  refine ⟨?_, ?_⟩
  · unfold pyItemName
    rw [hn.size8]
    simp only [Res.ok_bind]
    rw [if_neg (by omega), hn.name8 _ (Nat.le_refl _) (by omega)]
    simp only [Res.ok_bind]
    exact pyDecode_text hp hsc _
  · have h1 : cs.flatMap encode8 = pySummaryName ↔ cs = summaryChars := by
      rw [pySummaryName_eq.1]
      exact ⟨encode8s_inj hu hsc fun c h => (summaryChars_text.1.chars.2 c h).1, fun h => by rw [h]⟩
    have h2 : cs.flatMap encode8 = pyDocumentSummaryName ↔ cs = documentSummaryChars := by
      rw [pySummaryName_eq.2]
      exact ⟨encode8s_inj hu hsc fun c h => (summaryChars_text.2.chars.2 c h).1, fun h => by rw [h]⟩
    have hl1 : pySummaryName.length = 19 := by decide
    have hl2 : pyDocumentSummaryName.length = 27 := by decide
    have hset : cs ∈ setNames ↔ cs.flatMap encode8 = pySummaryName ∨
        cs.flatMap encode8 = pyDocumentSummaryName := by
      rw [setNames_eq, h1, h2]; simp
    by_cases hsz : (cs.flatMap encode8).length + 1 = 20 ∨ (cs.flatMap encode8).length + 1 = 28
    · have hname : pyUtf8Name env.u io x.entry = some (cs.flatMap encode8) := by
        unfold pyUtf8Name
        rw [hn'.size8]
        dsimp only
        rw [if_pos hsz, hn'.name8 _ (Nat.le_refl _) (by omega)]
        dsimp only
        rw [Nat.add_sub_cancel, List.take_left' rfl]
      rw [C71_class_of_item hname]
      simp only [hset]
    · have hname : pyUtf8Name env.u io x.entry = some [] := by
        unfold pyUtf8Name
        rw [hn'.size8]
        dsimp only
        rw [if_neg hsz]
      have hno : cs ∉ setNames := by
        rw [hset]
        rintro (h | h)
        · rw [h] at hsz; omega
        · rw [h] at hsz; omega
      rw [C71_class_of_item hname, if_neg hno]
      have : ¬ (([] : Bytes) = pySummaryName ∨ ([] : Bytes) = pyDocumentSummaryName) := by decide
      rw [if_neg this]

/-- The names of a document, with their lengths. -/
structure PyNames (e : Endian) (doc : Doc) : Prop where
  text : TextNames e doc
  short : ∀ n ∈ doc.names, n.length ≤ 64

theorem pyNames_kid {e : Endian} {kids : List (Bytes × Doc)} (h : PyNames e (.storage kids))
    {n : Bytes} {k : Doc} (hm : (n, k) ∈ kids) :
    PyNames e k ∧ n.length ≤ 64 ∧ ∃ cs, NameText cs ∧ n = storedName e cs := by
  obtain ⟨h1, h2⟩ := kid_names_mem hm
  have hs := h.short
  rw [Doc.names] at hs
  exact ⟨⟨textNames_kid h.text hm, fun m hm' => hs m (h2 m hm')⟩, hs n h1,
    h.text.text [] n k (.sub .here hm)⟩

theorem pyNames_docAt {e : Endian} {doc : Doc} (h : PyNames e doc) {path : List Bytes} {d : Doc}
    (hd : DocAt doc path d) : PyNames e d := by
  induction hd with
  | here => exact h
  | sub _ hm ih => exact (pyNames_kid ih hm).1

theorem smallStreams_docAt {doc : Doc} (h : SmallStreams doc) {path : List Bytes} {d : Doc}
    (hd : DocAt doc path d) : SmallStreams d := by
  induction hd with
  | here => exact h
  | sub _ hm ih => cases ih with | storage hs => exact hs _ hm

theorem shows_stream {t : Tree} {f : FileCtx} {it : Item} {doc : Doc} (hs : Shows t f it doc) :
    (it.entry.type = 2 ↔ ∃ data, doc = .stream data) := by
  cases hs with
  | stream h => exact ⟨fun _ => ⟨_, rfl⟩, fun _ => h⟩
  | storage h => exact ⟨fun h' => (by omega), fun ⟨_, h'⟩ => by cases h'⟩

theorem shown_class {t : Tree} {f : FileCtx} {it : Item} {doc : Doc} (hs : Shows t f it doc)
    (cs : List Nat) : (if it.entry.type ≠ 2 then PyClass.item
      else if cs ∈ setNames then .propertySetStream else .stream) = viewClass cs doc := by
  cases doc with
  | stream data =>
    rw [if_neg (by have := (shows_stream hs).2 ⟨_, rfl⟩; omega)]
    rfl
  | storage kids =>
    rw [if_pos (fun h => by obtain ⟨_, h⟩ := (shows_stream hs).1 h; cases h)]
    rfl

theorem compares8 {u : Libuna} (hu : IsLibuna u) (e : Endian) : ComparesText e encode8 (u.cmp8 e) :=
  fun a b ha hb => (hu.cmp8 e a b ha hb).1

/-- From an item that shows a document the program sees it. -/
theorem shown_views {env : PyEnv} (hp : IsPyCodec env.py) (hu : IsLibuna env.u) {e : Endian} {t : Tree}
    {f : FileCtx} (he : f.io.byteOrder = e) {it : Item} {doc : Doc} (hs : Shows t f it doc)
    (hn : PyNames e doc) (hsmall : SmallStreams doc) : ∀ cls : PyClass,
    (cls = .item ↔ it.entry.type ≠ 2) → PyViews env e t f ⟨cls, it⟩ doc := by
  induction hs with
  | @stream it data ht hk hsz hr =>
    intro cls hcls
    cases hsmall with
    | stream hlen =>
      refine .stream (fun h => hcls.1 h ht) hsz ?_
      exact (C70_read_partial (.stream ht hk hsz hr) 0).1 hlen
  | @storage it kids kids' items ht hnum hg hpm hl hname hsub ih =>
    intro cls hcls
    cases hsmall with
    | storage hsm =>
      have hkid : ∀ (i : Nat) (c : Item) (k : Bytes × Doc), items[i]? = some c → kids'[i]? = some k →
          PyNames e k.2 ∧ ∃ cs, NameText cs ∧ k.1 = storedName e cs ∧
            pyItemName env f.io c = .ok (some cs) ∧
            itemClass (pyUtf8Name env.u f.io) c.entry = .ok (viewClass cs k.2) := by
        intro i c k hc hk
        obtain ⟨h1, h2, cs, h3, h4⟩ := pyNames_kid hn (n := k.1) (k := k.2)
          (hpm.mem_iff.1 (List.mem_of_getElem? hk))
        have hnm := hname i c k hc hk
        obtain ⟨h5, h6⟩ := named_item (io := f.io) hp hu h3 (by rw [he, hnm, h4])
          (by rw [he, ← h4]; omega)
        rw [shown_class (hsub i c k hc hk)] at h6
        exact ⟨h1, cs, h3, h4, h5, h6⟩
      have hitems : (t.kids it.node).map Item.ofEntry = items := by
        apply List.ext_getElem?
        intro i
        cases hx : items[i]? with
        | some c =>
          have := (hg i c).2 hx
          obtain ⟨d, h1, h2⟩ := getSubItem_ok.1 this
          rw [List.getElem?_map, h1, h2]; rfl
        | none =>
          rw [List.getElem?_map]
          cases hy : (t.kids it.node)[i]? with
          | none => rfl
          | some d =>
            have := (hg i (Item.ofEntry d)).1 (getSubItem_ok.2 ⟨d, hy, rfl⟩)
            rw [hx] at this; cases this
      obtain ⟨l, hen, hlen, hli, hclass⟩ := C69_sub_items (utf8Name := pyUtf8Name env.u f.io) (t := t)
        (p := ⟨cls, it⟩) (by
          intro c hc hty hno
          obtain ⟨i, hi, he'⟩ := List.mem_iff_getElem.1 hc
          have hci : items[i]? = some (Item.ofEntry c) := by
            rw [← hitems, List.getElem?_map, List.getElem?_eq_getElem hi, he']; rfl
          have hlt := (List.getElem?_eq_some_iff.1 hci).1
          obtain ⟨_, cs, _, _, _, h6⟩ := hkid i _ _ hci (List.getElem?_eq_getElem (by omega))
          unfold itemClass at h6
          have hty' : (Item.ofEntry c).entry.type = typeStream := hty
          rw [if_pos hty', show pyUtf8Name env.u f.io (Item.ofEntry c).entry = none from hno] at h6
          cases h6)
      dsimp only at hli
      rw [hitems] at hli
      have hitem : ∀ (i : Nat) (c : PyItem), l[i]? = some c → items[i]? = some c.item := by
        intro i c hc
        rw [← hli, List.getElem?_map, hc]; rfl
      have hnum' : l.length = items.length := by
        have := congrArg List.length hli
        simpa using this
      have hcl : ∀ (i : Nat) (c : PyItem) (k : Bytes × Doc), l[i]? = some c → kids'[i]? = some k →
          PyNames e k.2 ∧ ∃ cs, k.1 = storedName e cs ∧ pyItemName env f.io c.item = .ok (some cs) ∧
            c.cls = viewClass cs k.2 ∧ pySubItemByName env f.io t ⟨cls, it⟩ (.str cs) = .ok (some c) := by
        intro i c k hc hk
        obtain ⟨h1, cs, hcs, h2, h3, h4⟩ := hkid i c.item k (hitem i c hc) hk
        have hcc := hclass c (List.mem_of_getElem? hc)
        have hcc' := hcc
        rw [h4] at hcc'
        refine ⟨h1, cs, h2, h3, (Res.ok.inj hcc').symm, ?_⟩
        have hmem : (storedName e cs, k.2) ∈ kids := by
          rw [← h2]; exact hpm.mem_iff.1 (List.mem_of_getElem? hk)
        obtain ⟨x, hx1, hx2, hx3⟩ := (shown_name (.storage ht hnum hg hpm hl hname hsub) hn.text
          hcs).1 kids k.2 rfl hmem
        have hx4 := hx3 _ _ _ (compares8 hu e)
        obtain ⟨j, hj, _, _⟩ := ((C21_name_lookup _ t it _).1 x).1 hx4
        have hj' := (hg j x).1 hj
        have hjl := (List.getElem?_eq_some_iff.1 hj').1
        have hkj := List.getElem?_eq_getElem (show j < kids'.length by omega)
        have hnj := hname j x _ hj' hkj
        have hnd : (kids'.map (·.1)).Nodup :=
          ((hpm.map (·.1)).nodup_iff).2 (hn.text.distinct [] kids .here)
        have hik : i < kids'.length := (List.getElem?_eq_some_iff.1 hk).1
        have hij : i = j := by
          refine (List.Nodup.getElem_inj_iff hnd (hi := by simpa using hik)
            (hj := by simp; omega)).1 ?_
          rw [List.getElem_map, List.getElem_map, ← hnj, hx2, ← h2]
          rw [List.getElem?_eq_getElem hik] at hk
          rw [Option.some.inj hk]
        subst hij
        have hxc : x = c.item := by
          rw [hitem i c hc] at hj'
          exact (Option.some.inj hj').symm
        subst hxc
        unfold pySubItemByName
        rw [(pyFormatS_eq hp cs _).2 ⟨fun c h => (hcs.chars.2 c h).1,
          fun h => (hcs.chars.2 0 h).2 rfl, rfl⟩]
        simp only [Res.ok_bind]
        unfold pySubItemBy
        rw [he, hx4]
        simp only [Res.ok_bind]
        rw [hcc]
        rfl
      obtain ⟨s, hloop⟩ := C69_for_loop_partial hen
      refine .storage (kids' := kids') (items := l) (hcls.2 (by
        rcases ht with h | h <;> rw [h] <;> decide)) ⟨l.length + 1, s, ?_⟩ hpm (by omega) ?_ ?_ ?_
      · have : pySubItems (pyUtf8Name env.u f.io) t ⟨cls, it⟩ =
            PySeq.new (pySubItem (pyUtf8Name env.u f.io) t ⟨cls, it⟩) l.length := by
          unfold pySubItems PySeq.new at hlen ⊢
          dsimp only at hlen ⊢
          rw [hlen]
        rw [this]
        exact hloop
      · intro i c k hc hk
        exact (hcl i c k hc hk).2
      · intro cs hcs hno
        have := (shown_name (.storage ht hnum hg hpm hl hname hsub) hn.text hcs).2 (by
          intro kids2 k h hm
          cases h
          exact hno (List.mem_map.2 ⟨_, hm, rfl⟩)) _ _ _ (compares8 hu e)
        unfold pySubItemByName
        rw [(pyFormatS_eq hp cs _).2 ⟨fun c h => (hcs.chars.2 c h).1,
          fun h => (hcs.chars.2 0 h).2 rfl, rfl⟩]
        simp only [Res.ok_bind]
        unfold pySubItemBy
        rw [he, this]
        rfl
      · intro i c k hc hk
        obtain ⟨h1, cs, h2, _, h4, _⟩ := hcl i c k hc hk
        have hsh := hsub i c.item k (hitem i c hc) hk
        refine ih i c.item k (hitem i c hc) hk h1 (hsm k (hpm.mem_iff.1 (List.mem_of_getElem? hk)))
          c.cls ?_
        rw [h4, ← shown_class hsh]
        by_cases hty : c.item.entry.type = 2
        · rw [if_neg (by simp [hty])]
          refine ⟨fun h => ?_, fun h => absurd hty h⟩
          split at h <;> cases h
        · rw [if_pos hty]
          exact ⟨fun _ => hty, fun _ => rfl⟩

theorem pyPathChars_encode (names : List (List Nat)) :
    (pyPathChars names).flatMap encode8 = pathText encode8 names := by
  unfold pyPathChars pathText
  induction names with
  | nil => rfl
  | cons cs names ih =>
    rw [List.flatMap_cons, List.flatMap_cons, List.flatMap_append, List.flatMap_cons, ih]

theorem pyPathChars_format {py : PyCodec} (hp : IsPyCodec py) {names : List (List Nat)}
    (hn : PathNames names) : pyFormatS py (.str (pyPathChars names)) = .ok (pathText encode8 names) := by
  refine (pyFormatS_eq hp _ _).2 ⟨?_, ?_, (pyPathChars_encode names).symm⟩
  · intro c hc
    obtain ⟨cs, h1, h2⟩ := List.mem_flatMap.1 hc
    rcases List.mem_cons.1 h2 with rfl | h2
    · decide
    · exact ((hn cs h1).1.chars.2 c h2).1
  · intro hc
    obtain ⟨cs, h1, h2⟩ := List.mem_flatMap.1 hc
    rcases List.mem_cons.1 h2 with h2 | h2
    · cases h2
    · exact ((hn cs h1).1.chars.2 0 h2).2 rfl

/-- Lookups by paths from an item that shows a document, asked of it or of the file. -/
theorem shown_finds {env : PyEnv} (hp : IsPyCodec env.py) (hu : IsLibuna env.u) {e : Endian} {t : Tree}
    {f : FileCtx} (he : f.io.byteOrder = e) {p : PyItem} {doc : Doc} (hs : Shows t f p.item doc)
    (hn : PyNames e doc) (hsmall : SmallStreams doc) :
    PyFinds env e t f viewClass (pySubItemByPath env f.io t p) doc ∧
    (rootItem (some t) = some p.item →
      PyFinds env e t f (fun _ => fileViewClass) (pyFileByPath env f.io (some t)) doc) := by
  have htext := shows_text hu hs hn.text he
  have hfound : ∀ names last d, PathNames (names ++ [last]) →
      DocAt doc ((names ++ [last]).map (storedName e)) d →
      ∃ x, itemByPath env.u.dec8 (env.u.cmp8 e) (some t) (some p.item)
          (pathText encode8 (names ++ [last])) = .ok (some x) ∧ Shows t f x d ∧
        pyItemName env f.io x = .ok (some last) ∧
        itemClass (pyUtf8Name env.u f.io) x.entry = .ok (viewClass last d) ∧
        ∀ cls : PyClass, (cls = .item ↔ x.entry.type ≠ 2) → PyViews env e t f ⟨cls, x⟩ d := by
    intro names last d hpn hd
    have hlast : NameText last := (hpn last (by simp)).1
    obtain ⟨x, h1, h2, h3⟩ := (shown_walk (names ++ [last]) p.item doc hs hn.text
      fun cs h => (hpn cs h).1).1 d hd
    have h4 := h3 _ _ _ _ hu.dec8 (compares8 hu e)
    have hlen : (storedName e last).length ≤ 64 := by
      have hm := (docAt_names hd).1 (storedName e last) (by simp)
      exact hn.short _ hm
    obtain ⟨h5, h6⟩ := named_item (io := f.io) hp hu hlast (by rw [he]; exact h2 last (by simp))
      (by rw [he]; omega)
    rw [shown_class h1] at h6
    refine ⟨x, ?_, h1, h5, h6, fun cls hcls => ?_⟩
    · rw [itemByPath_walk hu.dec8 _ t p.item hpn]
      exact h4
    · exact shown_views hp hu he h1 (pyNames_docAt hn hd) (smallStreams_docAt hsmall hd) cls hcls
  have hcls : ∀ {x : Item} {d : Doc}, Shows t f x d → (∀ last, viewClass last d = .item ↔
      x.entry.type ≠ 2) ∧ (fileViewClass d = .item ↔ x.entry.type ≠ 2) ∧
      fileClass x.entry = fileViewClass d := by
    intro x d hx
    cases hx with
    | stream ht =>
      refine ⟨fun last => ⟨fun h => ?_, fun h => absurd ht h⟩,
        ⟨fun h => (by cases h), fun h => absurd ht h⟩, ?_⟩
      · unfold viewClass at h
        dsimp only at h
        split at h <;> cases h
      · unfold fileClass; rw [if_pos ht]; rfl
    | storage ht =>
      refine ⟨fun last => ⟨fun _ => (by omega), fun _ => rfl⟩, ⟨fun _ => (by omega), fun _ => rfl⟩, ?_⟩
      unfold fileClass
      rw [if_neg (by unfold typeStream; omega)]
      rfl
  refine ⟨⟨fun names last d hpn hd => ?_, fun names hpn hno => ?_⟩, fun hroot =>
    ⟨fun names last d hpn hd => ?_, fun names hpn hno => ?_⟩⟩
  · obtain ⟨x, h1, h2, h3, h4, h5⟩ := hfound names last d hpn hd
    refine ⟨⟨viewClass last d, x⟩, ?_, rfl, h3, h5 _ ((hcls h2).1 last)⟩
    unfold pySubItemByPath
    rw [pyPathChars_format hp hpn]
    simp only [Res.ok_bind]
    unfold pySubItemBy
    rw [he, h1]
    simp only [Res.ok_bind]
    rw [h4]
    rfl
  · unfold pySubItemByPath
    rw [pyPathChars_format hp hpn]
    simp only [Res.ok_bind]
    unfold pySubItemBy
    rw [he, (htext.missing names hpn hno).1]
    rfl
  · obtain ⟨x, h1, h2, h3, h4, h5⟩ := hfound names last d hpn hd
    refine ⟨⟨fileViewClass d, x⟩, ?_, rfl, h3, h5 _ (hcls h2).2.1⟩
    unfold pyFileByPath
    rw [pyPathChars_format hp hpn]
    simp only [Res.ok_bind]
    unfold pyItemByPath
    rw [he, hroot, h1]
    simp only [Res.ok_bind]
    rw [(hcls h2).2.2]
    rfl
  · unfold pyFileByPath
    rw [pyPathChars_format hp hpn]
    simp only [Res.ok_bind]
    unfold pyItemByPath
    rw [he, hroot, (htext.missing names hpn hno).1]
    rfl

/-! ### C88 -/

/-- C88 (partial: streams below 2 GiB).  After every history of calls, a program that asks an open file
  object with a stored document for the root item sees the document from there on: all parts with loops and
  by their names, by paths from the root item and by paths from the file. -/
theorem C88_document_partial {env : PyEnv} (hp : IsPyCodec env.py) (hu : IsLibuna env.u) (w : Writer)
    (kids : List (Bytes × Doc)) (hst : Storable w kids) (hn : TextNames w.order (.storage kids))
    (hsmall : SmallStreams (.storage kids)) {st : PyFile} (hr : PyReachable env st)
    (hh : st.Has (Dev.ofBytes (encodeFile w kids))) :
    ∃ h t f p, st.lib.file.handle = some h ∧ st.lib.file.tree = some t ∧
      st.lib.file.ctx (st.lib.world.dev h) = some f ∧ pyRootItem st.lib.file.tree = some p ∧
      PyViews env w.order t f p (.storage kids) ∧
      PyFinds env w.order t f viewClass (pySubItemByPath env f.io t p) (.storage kids) ∧
      PyFinds env w.order t f (fun _ => fileViewClass) (pyFileByPath env f.io (some t))
        (.storage kids) := by
  obtain ⟨h, t, f, ho⟩ := pyOpened hu w kids hst hn hr hh
  have hnames : PyNames w.order (.storage kids) :=
    ⟨hn, fun n hm => hst.names n (by rw [Doc.names] at hm; exact hm)⟩
  have hty : t.root.type ≠ 2 := by
    intro h
    obtain ⟨_, h⟩ := (shows_stream ho.shows).1 h
    cases h
  have hc : fileClass t.root = .item := by unfold fileClass; exact if_neg hty
  obtain ⟨h1, h2⟩ := shown_finds (p := ⟨.item, ⟨none, t.root⟩⟩) hp hu ho.order ho.shows hnames hsmall
  refine ⟨h, t, f, ⟨.item, ⟨none, t.root⟩⟩, ho.handle, ho.tree, ho.ctx, ?_, ?_, h1, h2 rfl⟩
  · rw [ho.tree, ← hc]; rfl
  · exact shown_views hp hu ho.order ho.shows hnames hsmall .item ⟨fun _ => hty, fun _ => rfl⟩

/-- C88 from any object that is found by a path: lookups from there find what is below it. -/
theorem C88_from_object_partial {env : PyEnv} (hp : IsPyCodec env.py) (hu : IsLibuna env.u) (w : Writer)
    (kids : List (Bytes × Doc)) (hst : Storable w kids) (hn : TextNames w.order (.storage kids))
    (hsmall : SmallStreams (.storage kids)) {st : PyFile} (hr : PyReachable env st)
    (hh : st.Has (Dev.ofBytes (encodeFile w kids))) {names : List (List Nat)} {last : List Nat}
    {d : Doc} (hpn : PathNames (names ++ [last]))
    (hd : DocAt (.storage kids) ((names ++ [last]).map (storedName w.order)) d) :
    ∃ h t f x, st.lib.file.handle = some h ∧ st.lib.file.tree = some t ∧
      st.lib.file.ctx (st.lib.world.dev h) = some f ∧
      pyFileByPath env f.io (some t) (.str (pyPathChars (names ++ [last]))) = .ok (some x) ∧
      PyFinds env w.order t f viewClass (pySubItemByPath env f.io t x) d := by
  obtain ⟨h, t, f, ho⟩ := pyOpened hu w kids hst hn hr hh
  have hnames : PyNames w.order (.storage kids) :=
    ⟨hn, fun n hm => hst.names n (by rw [Doc.names] at hm; exact hm)⟩
  obtain ⟨x, h1, _, h2, _⟩ := ho.text.found (names ++ [last]) d hpn hd
  refine ⟨h, t, f, ⟨fileClass x.entry, x⟩, ho.handle, ho.tree, ho.ctx, ?_,
    (shown_finds hp hu ho.order h2 (pyNames_docAt hnames hd) (smallStreams_docAt hsmall hd)).1⟩
  unfold pyFileByPath
  rw [pyPathChars_format hp hpn]
  simp only [Res.ok_bind]
  unfold pyItemByPath
  rw [ho.order, show rootItem (some t) = some ⟨none, t.root⟩ from rfl, h1]
  rfl

/-! ### C89: property sets -/

theorem hexDigitText_lt (n : Nat) : (hexDigitText n).toNat < 128 := by
  have : ∀ k : Fin 16, (hexDigitText k.val).toNat < 128 := by decide +kernel
  have h := this ⟨n % 16, Nat.mod_lt _ (by decide)⟩
  have he : hexDigitText n = hexDigitText (n % 16) := by
    unfold hexDigitText
    simp
  rw [he]
  exact h

theorem ascii_chars {s : Bytes} (h : ∀ b ∈ s, b.toNat < 128) :
    (∀ c ∈ s.map UInt8.toNat, Scalar c) ∧ (s.map UInt8.toNat).flatMap encode8 = s := by
  constructor
  · intro c hc
    obtain ⟨b, hb, rfl⟩ := List.mem_map.1 hc
    have := h b hb
    unfold Scalar
    omega
  · induction s with
    | nil => rfl
    | cons b s ih =>
      have hb := h b (by simp)
      rw [List.map_cons, List.flatMap_cons, ih fun x hx => h x (by simp [hx])]
      have hall : ∀ k : Fin 128, encode8 k.val = [UInt8.ofNat k.val] := by decide +kernel
      have : encode8 b.toNat = [b] := by
        rw [hall ⟨b.toNat, hb⟩]
        simp
      rw [this]
      rfl

theorem guidText_ascii (b : Bytes) : (guidText b).length = 36 ∧ ∀ x ∈ guidText b, x.toNat < 128 := by
  have hd := hexDigitText_lt
  have hm : ∀ x ∈ ascii "-", x.toNat < 128 := by decide +kernel
  have hl : (ascii "-").length = 1 := by decide +kernel
  constructor
  · unfold guidText
    simp [hl]
  · intro x hx
    unfold guidText at hx
    simp only [List.mem_append, List.mem_flatMap, List.mem_cons, List.not_mem_nil, or_false] at hx
    rcases hx with (((((((⟨_, _, h | h⟩ | h) | ⟨_, _, h | h⟩) | h) | ⟨_, _, h | h⟩) | h) |
      ⟨_, _, h | h⟩) | h) | ⟨_, _, h | h⟩ <;>
      first | exact hm x h | (rw [h]; exact hd _)

theorem pyGuid_text {py : PyCodec} (hp : IsPyCodec py) {libs : InfoLibs} {texts : Texts}
    (hl : IsInfoLibs libs texts) {b : Bytes} (hb : b.length = 16) :
    pyGuid py libs b = .ok (some ((guidText b).map UInt8.toNat)) := by
  obtain ⟨h1, h2⟩ := guidText_ascii b
  obtain ⟨h3, h4⟩ := ascii_chars h2
  unfold pyGuid
  rw [hl.guid b hb]
  dsimp only
  have := pyDecode_text hp h3 []
  rw [List.append_nil, h4, h1] at this
  exact this

theorem data_ok_iff {p : PropValue} {b : Bytes} : p.data = .ok b ↔ (seenProperty p).data = some b := by
  unfold seenProperty
  dsimp only
  cases p.data with
  | ok x => simp
  | _ => simp

theorem data_err {p : PropValue} (h : (seenProperty p).data = none) : p.data = .err := by
  unfold seenProperty PropValue.data at *
  dsimp only at *
  split at h
  · cases h
  · rename_i h1
    split
    · rename_i b hv
      exact absurd (by rw [hv]) (h1 b)
    · rfl

/-- The text of a string property that was read. -/
theorem asString_text {f : FileCtx} (h : WellFormedCtx f) {d : DirEntry} (hd : StreamOk f d)
    {e : Endian} {p : PropValue} (hp : ReadProperty f d e p) {libs : InfoLibs} {texts : Texts}
    (hl : IsInfoLibs libs texts) :
    (∀ s, propertyText texts f.io.codepage (seenProperty p) = some s →
      (p.asString fun enc b => ofUna (libs.textSize enc b)) = .ok (s.length + 1) ∧
      (p.asString fun enc b => ofUna (libs.textCopy enc b (s.length + 1))) = .ok (s ++ [0])) ∧
    (propertyText texts f.io.codepage (seenProperty p) = none →
      (p.asString fun enc b => ofUna (libs.textSize enc b)) = .err) := by
  have hstr := fun {α : Type} (conv : Encoding → Bytes → Res α) (x : α) => C40_string h hd hp conv x
  have hty : (seenProperty p).type = p.type := rfl
  unfold propertyText
  constructor
  · intro s hs
    split at hs
    · rename_i b hb
      rw [hty] at hs
      have hdat := data_ok_iff.2 hb
      split at hs
      · rename_i ht
        obtain ⟨_, h1, h2⟩ := hl.some _ _ _ hs
        exact ⟨(hstr _ _).2 (.inl ⟨ht, b, hdat, by rw [h1]; rfl⟩),
          (hstr _ _).2 (.inl ⟨ht, b, hdat, by rw [h2]; rfl⟩)⟩
      · split at hs
        · rename_i ht
          obtain ⟨_, h1, h2⟩ := hl.some _ _ _ hs
          exact ⟨(hstr _ _).2 (.inr ⟨ht, b, hdat, by rw [h1]; rfl⟩),
            (hstr _ _).2 (.inr ⟨ht, b, hdat, by rw [h2]; rfl⟩)⟩
        · cases hs
    · cases hs
  · intro hn
    have hno : ∀ x, (p.asString fun enc b => ofUna (libs.textSize enc b)) ≠ .ok x := by
      intro x hx
      rcases (hstr _ _).1 hx with ⟨ht, b, hdat, hc⟩ | ⟨ht, b, hdat, hc⟩
      · rw [data_ok_iff.1 hdat] at hn
        dsimp only at hn
        rw [hty, if_pos ht] at hn
        rw [hl.none _ _ hn] at hc
        cases hc
      · rw [data_ok_iff.1 hdat] at hn
        dsimp only at hn
        rw [hty, if_neg (by omega), if_pos ht] at hn
        rw [hl.none _ _ hn] at hc
        cases hc
    have hcases : (∃ x, (p.asString fun enc b => ofUna (libs.textSize enc b)) = .ok x) ∨
        (p.asString fun enc b => ofUna (libs.textSize enc b)) = .err := by
      unfold PropValue.asString
      split
      · exact .inr rfl
      · split
        · rename_i enc b _
          dsimp only
          cases libs.textSize enc b with
          | some x => exact .inl ⟨x, rfl⟩
          | none => exact .inr rfl
        · exact .inr rfl
    rcases hcases with ⟨x, hx⟩ | hx
    · exact absurd hx (hno x)
    · exact hx

/-- What a program sees of a property that was read. -/
theorem value_seen {f : FileCtx} (h : WellFormedCtx f) {d : DirEntry} (hd : StreamOk f d)
    {p : PropValue} (hp : ReadProperty f d .little p) {env : PyEnv} (hpy : IsPyCodec env.py)
    {l : PyLibs} (hapi : IsPython l.api) (hl : IsInfoLibs l.libs l.texts) :
    PySeesValue env l f.io.codepage p (seenProperty p) where
  identifier := rfl
  type := rfl
  data b hb := by
    unfold pyData
    rw [data_ok_iff.2 hb]
    simp only [Res.ok_bind]
    cases b with
    | nil => rfl
    | cons x b => rw [if_neg (by simp), if_neg (by simp)]; rfl
  noData hn := by
    unfold pyData
    rw [data_err hn]
    rfl
  integer z := by
    rw [C72_integer h hd hp z]
    simp only [data_ok_iff]
    rfl
  boolean x := by
    rw [C72_boolean h hd hp x]
    simp only [data_ok_iff]
    rfl
  datetime t ht := by
    obtain ⟨h1, ft, h2, h3, h4⟩ := (C72_datetime_partial h hd hp hapi t).1 ht
    exact ⟨h1, ft, h2, data_ok_iff.1 h3, h4⟩
  datetimeOf t ft h1 h2 h3 h4 h5 h6 :=
    (C72_datetime_partial h hd hp hapi t).2 h1 ft h2 (data_ok_iff.2 h3) h4 h5 h6
  string cs hc ht := by
    obtain ⟨h1, h2⟩ := (asString_text h hd hp hl).1 _ ht
    unfold pyString
    rw [h1]
    simp only [Res.ok_bind]
    rw [if_neg (by omega), h2]
    simp only [Res.ok_bind]
    exact pyDecode_text hpy hc _
  noString hn := by
    unfold pyString
    rw [(asString_text h hd hp hl).2 hn]
    rfl

theorem array_loop {α : Type} (l : List α) :
    ∃ n q, (PySeq.new (arrayGet l) l.length).forLoop n = (l, .ok (), q) := by
  obtain ⟨s, hs⟩ := C69_for_loop_partial (arrayGet_enumerates l)
  exact ⟨_, s, hs⟩

/-- What a program sees of a property set that was read. -/
theorem set_seen {f : FileCtx} (h : WellFormedCtx f) {d : DirEntry} (hd : StreamOk f d)
    {env : PyEnv} (hpy : IsPyCodec env.py) {l : PyLibs} (hapi : IsPython l.api)
    (hl : IsInfoLibs l.libs l.texts) {cur : Nat} {ps : PropSet} {c : Int}
    (hr : readSet f d cur = (.ok ps, c)) {b : Bytes} (hb : streamContent f d 0 28 = some b)
    (hm : b.take 2 = setMark .little) : PySeesSet env l f.io.codepage ps (seenSet ps) := by
  obtain ⟨b', e', hb', hm', hcls, hsl⟩ := (readSet_ok h hd).1 hr
  rw [hb] at hb'
  cases hb'
  rw [hm] at hm'
  cases setMark_inj hm'
  obtain ⟨-, s2, -⟩ := sectionsLoop_sound h hd _ 28 28 _ _ (by omega) hsl
  have hlen28 : b.length = 28 := streamContent_length hb
  have hc : ps.classId.length = 16 := by
    rw [← hcls, List.length_take, List.length_drop]
    omega
  refine ⟨pyGuid_text hpy hl hc, ?_⟩
  obtain ⟨n, q, hloop⟩ := array_loop ps.sections
  refine ⟨n, ps.sections, q, hloop, by simp [seenSet], ?_⟩
  intro i s s' hs hs'
  have : s' = seenSection s := by
    unfold seenSet at hs'
    dsimp only at hs'
    rw [List.getElem?_map, hs] at hs'
    exact (Option.some.inj hs').symm
  subst this
  obtain ⟨b', hb', hcl, -⟩ := s2 i s hs
  have hcs : s.classId.length = 16 := by
    have := streamContent_length hb'
    rw [← hcl, List.length_take]
    omega
  refine ⟨pyGuid_text hpy hl hcs, ?_⟩
  obtain ⟨n, q, hloop⟩ := array_loop s.properties
  refine ⟨n, s.properties, q, hloop, by simp [seenSection], ?_⟩
  intro j p p' hp hp'
  have : p' = seenProperty p := by
    unfold seenSection at hp'
    dsimp only at hp'
    rw [List.getElem?_map, hp] at hp'
    exact (Option.some.inj hp').symm
  subst this
  exact value_seen h hd ⟨cur, ps, c, s, b, hr, List.mem_of_getElem? hs, List.mem_of_getElem? hp, hb, hm⟩
    hpy hapi hl

/-- The property set in a stream, from any position of the stream. -/
theorem shown_set {t : Tree} {f : FileCtx} (hwf : WellFormedCtx f) {x : Item}
    (hfits : EntryFits x.entry) {s : SetValue} (hs : Shows t f x (.stream (encodeSet .little s)))
    (hw : WritableSet .little s) (hn : s.sections.length < 65536) {env : PyEnv}
    (hpy : IsPyCodec env.py) {l : PyLibs} (hapi : IsPython l.api) (hl : IsInfoLibs l.libs l.texts)
    (cur : Nat) :
    ∃ ps, pyGetSet f ⟨.propertySetStream, x⟩ cur = .ok ps ∧ PySeesSet env l f.io.codepage ps s := by
  cases hs with
  | stream htype _ hsize hread =>
    have hsz := hw.size
    have hu : 0 < unitOf f x.entry := by
      unfold unitOf
      split
      · exact hwf.short.1
      · exact hwf.ss.1
    have hok : StreamOk f x.entry := by
      refine ⟨hfits, htype, ?_⟩
      have := Nat.mul_le_mul_right 2147483647 hu
      omega
    have hcov : Covers (streamContent f x.entry) (bytesContent (encodeSet .little s)) := by
      intro pos n b hb
      unfold bytesContent at hb
      split at hb
      · next hle =>
        cases hb
        unfold streamContent
        rw [hread pos n (by omega)]
        simp only []
        rw [if_pos (by rw [List.length_take, List.length_drop]; omega)]
      · cases hb
    have hhold := hcov.holdsSet (encodeSet_holds hw)
    obtain ⟨ps, q, hr, hseen⟩ := C38_set_read_as_serialised_partial hwf hok (by omega) hhold hn cur
    obtain ⟨b, hb, hm, -⟩ := hhold
    refine ⟨ps, ?_, ?_⟩
    · unfold pyGetSet
      rw [if_pos rfl, hr]
    · rw [← hseen]
      exact set_seen hwf hok hpy hapi hl hr hb hm

theorem walk_itemAt {α : Type} {cmp : List α → Bytes → Option Bool} {t : Tree} :
    ∀ (names : List (List α)) (it x : Item) (q : List Nat), itemAt t q = some it →
      Spec.walk (getSubItemByName cmp t) it names = .ok (some x) → ∃ q', itemAt t q' = some x
  | [], it, x, q, hq, h => by
    cases h
    exact ⟨q, hq⟩
  | n :: names, it, x, q, hq, h => by
    rw [Spec.walk] at h
    split at h
    · cases h
    · split at h
      · rename_i c hc
        obtain ⟨i, hi, _⟩ := ((C21_name_lookup cmp t it n).1 c).1 hc
        exact walk_itemAt names c x (q ++ [i]) ((itemFrom_snoc t q _ i c).2 ⟨it, hq, hi⟩) h
      all_goals cases h

/-- C89 (partial: sets in little endian with less than 65536 sections; times not on 31 December 1699).
  After every history of calls, a program that asks an open file object with a stored document for the root
  item and this for the path of a stream with one of the two names, and that stream for its property set, at
  any position of the stream, sees the property set that was stored there: the class identifiers, all
  sections and properties in their order, and their values; strings of bytes in the code page of the file
  object. -/
theorem C89_set_at_path_partial {env : PyEnv} (hp : IsPyCodec env.py) (hu : IsLibuna env.u) {l : PyLibs}
    (hapi : IsPython l.api) (hl : IsInfoLibs l.libs l.texts) (w : Writer)
    (kids : List (Bytes × Doc)) (hst : Storable w kids) (hn : TextNames w.order (.storage kids))
    {st : PyFile} (hr : PyReachable env st) (hh : st.Has (Dev.ofBytes (encodeFile w kids)))
    {names : List (List Nat)} {last : List Nat} (hpn : PathNames (names ++ [last]))
    (hlast : last ∈ setNames) {s : SetValue}
    (hd : DocAt (.storage kids) ((names ++ [last]).map (storedName w.order))
      (.stream (encodeSet .little s)))
    (hw : WritableSet .little s) (hsec : s.sections.length < 65536) :
    ∃ h t f p x, st.lib.file.handle = some h ∧ st.lib.file.tree = some t ∧
      st.lib.file.ctx (st.lib.world.dev h) = some f ∧ pyRootItem st.lib.file.tree = some p ∧
      pySubItemByPath env f.io t p (.str (pyPathChars (names ++ [last]))) = .ok (some x) ∧
      ∀ cur : Nat, ∃ ps, pyGetSet f x cur = .ok ps ∧
        PySeesSet env l (getCodepage st.lib.file) ps s := by
  obtain ⟨h, t, f, ho⟩ := pyOpened hu w kids hst hn hr hh
  obtain ⟨x, h1, h2, h3⟩ := (shown_walk (names ++ [last]) ⟨none, t.root⟩ _ ho.shows hn
    fun cs hc => (hpn cs hc).1).1 _ hd
  have h4 := h3 _ _ _ _ hu.dec8 (compares8 hu w.order)
  obtain ⟨q, hq⟩ := walk_itemAt _ _ _ [] rfl h4
  obtain ⟨hfit, hlen⟩ := ho.fits q x hq
  have hx := h2 last (by simp)
  obtain ⟨-, h6⟩ := named_item (io := f.io) (x := x) hp hu (hpn last (by simp)).1
    (by rw [ho.order]; exact hx) (by rw [ho.order, ← hx]; exact hlen)
  rw [shown_class h1] at h6
  have hcls : viewClass last (.stream (encodeSet .little s)) = .propertySetStream := if_pos hlast
  rw [hcls] at h6
  refine ⟨h, t, f, ⟨fileClass t.root, ⟨none, t.root⟩⟩, ⟨.propertySetStream, x⟩, ho.handle, ho.tree,
    ho.ctx, by rw [ho.tree]; rfl, ?_, fun cur => ?_⟩
  · unfold pySubItemByPath
    rw [pyPathChars_format hp hpn]
    simp only [Res.ok_bind]
    unfold pySubItemBy
    rw [ho.order, itemByPath_walk hu.dec8 _ t _ hpn, h4]
    simp only [Res.ok_bind]
    rw [h6]
    rfl
  · have hcp : getCodepage st.lib.file = f.io.codepage := by
      unfold getCodepage
      rw [ho.io]
    rw [hcp]
    exact shown_set ho.wf hfit h1 hw hsec hp hapi hl cur

/-- C89 by name: the streams with the two names in the root of a document. -/
theorem C89_summary_partial {env : PyEnv} (hp : IsPyCodec env.py) (hu : IsLibuna env.u) {l : PyLibs}
    (hapi : IsPython l.api) (hl : IsInfoLibs l.libs l.texts) (w : Writer)
    (kids : List (Bytes × Doc)) (hst : Storable w kids) (hn : TextNames w.order (.storage kids))
    {st : PyFile} (hr : PyReachable env st) (hh : st.Has (Dev.ofBytes (encodeFile w kids)))
    {name : List Nat} (hname : name ∈ setNames) {s : SetValue}
    (hk : (storedName w.order name, .stream (encodeSet .little s)) ∈ kids)
    (hw : WritableSet .little s) (hsec : s.sections.length < 65536) :
    ∃ h t f p x, st.lib.file.handle = some h ∧ st.lib.file.tree = some t ∧
      st.lib.file.ctx (st.lib.world.dev h) = some f ∧ pyRootItem st.lib.file.tree = some p ∧
      pySubItemByName env f.io t p (.str name) = .ok (some x) ∧
      ∀ cur : Nat, ∃ ps, pyGetSet f x cur = .ok ps ∧
        PySeesSet env l (getCodepage st.lib.file) ps s := by
  have hnt : NameText name := by
    rw [setNames_eq] at hname
    rcases List.mem_cons.1 hname with rfl | hname
    · exact summaryChars_text.1
    · rw [List.mem_singleton.1 hname]; exact summaryChars_text.2
  obtain ⟨h, t, f, ho⟩ := pyOpened hu w kids hst hn hr hh
  obtain ⟨x, h1, hx, h3⟩ := (shown_name ho.shows hn hnt).1 kids _ rfl hk
  have h4 := h3 _ _ _ (compares8 hu w.order)
  obtain ⟨i, hi, -⟩ := ((C21_name_lookup _ t ⟨none, t.root⟩ _).1 _).1 h4
  obtain ⟨hfit, hlen⟩ := ho.fits [i] x ((itemFrom_snoc t [] _ i x).2 ⟨_, rfl, hi⟩)
  obtain ⟨-, h6⟩ := named_item (io := f.io) (x := x) hp hu hnt (by rw [ho.order]; exact hx)
    (by rw [ho.order, ← hx]; exact hlen)
  rw [shown_class h1] at h6
  have hcls : viewClass name (.stream (encodeSet .little s)) = .propertySetStream := if_pos hname
  rw [hcls] at h6
  refine ⟨h, t, f, ⟨fileClass t.root, ⟨none, t.root⟩⟩, ⟨.propertySetStream, x⟩, ho.handle, ho.tree,
    ho.ctx, by rw [ho.tree]; rfl, ?_, fun cur => ?_⟩
  · unfold pySubItemByName
    rw [(pyFormatS_eq hp name _).2 ⟨fun c h => (hnt.chars.2 c h).1, fun h => (hnt.chars.2 0 h).2 rfl, rfl⟩]
    simp only [Res.ok_bind]
    unfold pySubItemBy
    rw [ho.order, h4]
    simp only [Res.ok_bind]
    rw [h6]
    rfl
  · have hcp : getCodepage st.lib.file = f.io.codepage := by
      unfold getCodepage
      rw [ho.io]
    rw [hcp]
    exact shown_set ho.wf hfit h1 hw hsec hp hapi hl cur

/-- C89 is violated for properties without data: `data` is documented to be a binary string or None, but
  raises an exception; a property with data of no bytes gives None. -/
theorem C89_no_data_violated (id type : Nat) (e : Encoding) :
    pyData ⟨id, type, none⟩ = .err ∧ pyData ⟨id, type, some ⟨e, none⟩⟩ = .err ∧
    pyData ⟨id, type, some ⟨e, some []⟩⟩ = .ok none := ⟨rfl, rfl, rfl⟩

/-! ### Examples -/

/-- For every stored document there is a program that has it open. -/
theorem stored_open (w : Writer) (kids : List (Bytes × Doc)) (hst : Storable w kids)
    (hn : TextNames w.order (.storage kids)) :
    ∃ st, PyReachable plainPyEnv st ∧ st.Has (Dev.ofBytes (encodeFile w kids)) := by
  have hr : PyReachable plainPyEnv PyFile.new := ⟨[], rfl⟩
  have hc : ¬ PyFile.new.isOpen := by unfold PyFile.isOpen; exact Bool.false_ne_true
  let obj : PyFileArg := ⟨true, true, Dev.ofBytes (encodeFile w kids)⟩
  have h1 := (C86_document plainPy_isPyCodec plainUna_isLibuna w kids hst hn (env := plainPyEnv) hr hc
    (mode := none) .missing).2 obj rfl rfl rfl
  exact ⟨_, pyReachable_run hr (.openObject obj none),
    (C86_open_object plainPy_isPyCodec hr obj none).2.1 h1.1⟩

theorem unicodeDoc_small (e : Endian) : SmallStreams (.storage (unicodeDoc e)) := by
  refine .storage fun k hk => ?_
  simp only [unicodeDoc, List.mem_cons, List.not_mem_nil, or_false] at hk
  rcases hk with rfl | rfl
  · exact .stream (by decide)
  · refine .storage fun k hk => ?_
    simp only [List.mem_cons, List.not_mem_nil, or_false] at hk
    rcases hk with rfl | rfl <;> exact .stream (by decide)

/-- The document of `Props/Text.lean`: from the file, the path with `Ä` and an emoji leads to a stream object
  with this name, whose data is read with one call; `B` leads to `None`. -/
example (e : Endian) : ∃ st h t f x, PyReachable plainPyEnv st ∧ st.lib.file.handle = some h ∧
    st.lib.file.tree = some t ∧ st.lib.file.ctx (st.lib.world.dev h) = some f ∧
    pyFileByPath plainPyEnv f.io (some t) (.str [0x5c, 0xc4, 0x5c, 0x1f600]) = .ok (some x) ∧
    x.cls = .stream ∧ pyItemName plainPyEnv f.io x.item = .ok (some [0x1f600]) ∧
    (pyRead f x.item.entry 0 .missing).1 = .ok [4, 5] ∧
    pyFileByPath plainPyEnv f.io (some t) (.str [0x5c, 0x42]) = .ok none := by
  obtain ⟨st, hr, hh⟩ := stored_open ⟨e, 9, 6, 4096, {}⟩ (unicodeDoc e) (unicodeDoc_storable e)
    (unicodeDoc_text e)
  obtain ⟨h, t, f, p, h1, h2, h3, h4, h5, h6, h7⟩ := C88_document_partial (env := plainPyEnv)
    plainPy_isPyCodec plainUna_isLibuna ⟨e, 9, 6, 4096, {}⟩ (unicodeDoc e) (unicodeDoc_storable e)
    (unicodeDoc_text e) (unicodeDoc_small e) hr hh
  obtain ⟨x, hx1, hx2, hx3, hx4⟩ := h7.found [[0xc4]] [0x1f600] (.stream [4, 5])
    (by intro cs hcs; simp at hcs; rcases hcs with rfl | rfl <;> decide)
    (docAt_cons (n := storedName e [0xc4]) (List.mem_cons_of_mem _ List.mem_cons_self)
      (docAt_cons (path := []) (List.mem_cons_of_mem _ List.mem_cons_self) .here))
  have hmiss := h7.missing [[0x42]] (by intro cs hcs; simp at hcs; rw [hcs]; decide) (by
    intro d hd
    rcases docAt_uncons hd with ⟨h, _⟩ | ⟨n, rest, ks, k, h, hk, hm, _⟩
    · cases h
    · simp only [List.map_cons, List.map_nil, List.cons.injEq] at h
      cases hk
      rw [← h.1] at hm
      have hne : storedName e [0x42] ≠ storedName e [0x41] ∧ storedName e [0x42] ≠ storedName e [0xc4] := by
        cases e <;> decide +kernel
      simp only [unicodeDoc, List.mem_cons, Prod.mk.injEq, List.not_mem_nil, or_false] at hm
      rcases hm with ⟨h, _⟩ | ⟨h, _⟩
      · exact hne.1 h
      · exact hne.2 h)
  refine ⟨st, h, t, f, x, hr, h1, h2, h3, hx1, hx2, hx3, ?_, hmiss⟩
  cases hx4 with
  | stream _ _ h => exact h

/-- The document with summary information of `Props/InfoRead.lean`: the property set of its first stream, and
  the code page, the title and the number of pages in it. -/
example : ∃ st h t f p x ps sec v1 v2 v3, PyReachable plainPyEnv st ∧
    st.lib.file.handle = some h ∧ st.lib.file.tree = some t ∧
    st.lib.file.ctx (st.lib.world.dev h) = some f ∧ pyRootItem st.lib.file.tree = some p ∧
    pySubItemByName plainPyEnv f.io t p (.str summaryChars) = .ok (some x) ∧
    pyGetSet f x 7 = .ok ps ∧
    (∃ n s, (pySections ps).forLoop n = ([sec], .ok (), s)) ∧
    (∃ n s v4 v5, (pyProperties sec).forLoop n = ([v1, v2, v3, v4, v5], .ok (), s)) ∧
    pyInteger v1 = .ok 1252 ∧
    pyString plainPyEnv.py plainLibs v2 = .ok (some [0x54, 0x69, 0x74, 0]) ∧
    pyInteger v3 = .ok (-1) := by
  have ht : ascii "Tit" ++ [0] ∈ [ascii "Tit" ++ [0], [0xff, 0]] := List.mem_cons_self
  obtain ⟨st, hr, hh⟩ := stored_open ⟨.little, 9, 6, 4096, {}⟩ (officeDoc (ascii "Tit" ++ [0]))
    (officeDoc_storable ht) (officeDoc_text _)
  obtain ⟨h, t, f, p, x, h1, h2, h3, h4, h5, h6⟩ := C89_summary_partial (env := plainPyEnv)
    (l := ⟨pythonApi, plainLibs, plainTexts⟩)
    plainPy_isPyCodec plainUna_isLibuna pythonApi_isPython plainLibs_is ⟨.little, 9, 6, 4096, {}⟩ _
    (officeDoc_storable ht) (officeDoc_text _) hr hh (name := summaryChars) (by decide)
    (s := titleSet (ascii "Tit" ++ [0])) List.mem_cons_self (titleSet_writable ht) (by decide)
  obtain ⟨ps, h7, h8⟩ := h6 7
  obtain ⟨n, secs, q, h9, h10, h11⟩ := h8.sections
  match secs, h10 with
  | [sec], _ =>
    have hs := h11 0 sec _ rfl rfl
    obtain ⟨n', vs, q', h12, h13, h14⟩ := hs.properties
    match vs, h13 with
    | [v1, v2, v3, v4, v5], _ =>
      have a1 := h14 0 v1 _ rfl rfl
      have a2 := h14 1 v2 _ rfl rfl
      have a3 := h14 2 v3 _ rfl rfl
      refine ⟨st, h, t, f, p, x, ps, sec, v1, v2, v3, hr, h1, h2, h3, h4, h5, h7, ⟨n, q, h9⟩,
        ⟨n', q', v4, v5, h12⟩, ?_, ?_, ?_⟩
      · exact (a1.integer 1252).2 ⟨2, true, by decide, by simp [HeldIn], by decide +kernel⟩
      · refine a2.string [0x54, 0x69, 0x74, 0] (by decide) ?_
        show plainTexts (.codepage (getCodepage st.lib.file)) (ascii "Tit" ++ [0]) = _
        unfold plainTexts
        rw [if_neg (by decide +kernel)]
        decide +kernel
      · exact (a3.integer (-1)).2 ⟨4, true, by decide, by simp [HeldIn], by decide +kernel⟩

end Olecf.Props
