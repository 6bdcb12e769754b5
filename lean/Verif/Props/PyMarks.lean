import Verif.Props.Marks
import Verif.Props.PyItems

/-
  Property C91: the times of item objects in Python are those stored.
-/

namespace Olecf.Props
open Olecf.Spec Olecf.Lemmas

/-- The item hierarchy of a file object with a stored document. -/
theorem pyOpened_tree {env : PyEnv} (hu : IsLibuna env.u) {w : Writer} {kids : List (Bytes × Doc)}
    (hst : Storable w kids) (hn : TextNames w.order (.storage kids)) {st : PyFile}
    (hr : PyReachable env st) (hh : st.Has (Dev.ofBytes (encodeFile w kids))) {t : Tree}
    (ht : st.lib.file.tree = some t) : ∃ m,
    (createTree (entriesOfSlots (slotsOfFile w kids)) (env.u.cmp8 w.order)).res = .ok (some (t, m)) := by
  obtain ⟨h, hh, hd⟩ := hh
  obtain ⟨io, l, hl, -, ht', -, -⟩ := pyReachable_loaded hr h hh
  obtain ⟨ho, -⟩ := stored_loads hu w kids hst hn
  rw [hd, ho] at hl
  have hcmp : ∀ n ∈ (entriesOfSlots (slotsOfFile w kids)).map (·.name),
      Comparable (env.u.cmp8 w.order) n := by
    rw [slotsOfFile_names hst]
    intro n hm
    rcases List.mem_cons.1 hm with rfl | hm
    · exact rootName_comparable _ _
    · exact textNames_comparable hu hn n hm
  obtain ⟨l', t', m, hl', ht2, htree, -⟩ := heldBy_loaded (encodeFile_held hst) _ hcmp io
  rw [hl] at hl'
  cases hl'
  rw [← ht', ht] at ht2
  cases ht2
  exact ⟨m, htree⟩

theorem valid_before_10000 {t : PyDateTime} (hval : ValidDateTime t) :
    microsOf t < dayNumber 10000 1 1 * 86400000000 := by
  have hy := hval.year
  have hmo := hval.month
  have hdy := hval.day
  have h1 := hval.hour; have h2 := hval.minute; have h3 := hval.second; have h4 := hval.micro
  have hlt := daysBeforeMonth_lt (y := t.year) (m := t.month) (n := 13) hmo.1 (by omega)
    (Nat.le_refl _)
  rw [daysBeforeMonth_all] at hlt
  have hmono : daysBeforeYear t.year + yearDays t.year ≤ daysBeforeYear 10000 :=
    daysBeforeYear_lt hy.1 (by omega)
  unfold microsOf dayNumber
  rw [daysBeforeMonth_one]
  omega

theorem shows_instant {api : DateTimeApi} (hapi : IsPython api) {ft : Nat} (h64 : ft < 2 ^ 64) :
    PyShowsInstant (datetimeFromFiletime api ft) ft := by
  refine ⟨fun t hv hm hday => ?_, fun t h => C68_never_wrong hapi h64 h⟩
  rcases Nat.lt_or_ge (filetimeMicros ft) (dayNumber 10000 1 1 * 86400000000) with hr | hr
  · obtain ⟨t', h1, h2, h3⟩ := C68_datetime_partial hapi h64 hr hday
    rw [h1, C68_instant_unique h2 hv (by rw [h3, hm])]
  · have := valid_before_10000 hv
    omega

/-- C91 in Python (partial: a datetime of 31 December 1699 is left open).  After every history of calls, in a
  file object that is open on a stored document, item objects under the names on the path to a part of the
  document, and with them the object that is found by that path, have the times stored for the part. -/
theorem C91_python_times_partial {env : PyEnv} (hp : IsPyCodec env.py) (hu : IsLibuna env.u)
    {api : DateTimeApi} (hapi : IsPython api) (w : Writer)
    (kids : List (Bytes × Doc)) (hst : Storable w kids) (hn : TextNames w.order (.storage kids))
    {st : PyFile} (hr : PyReachable env st) (hh : st.Has (Dev.ofBytes (encodeFile w kids))) :
    ∃ h t f p, st.lib.file.handle = some h ∧ st.lib.file.tree = some t ∧
      st.lib.file.ctx (st.lib.world.dev h) = some f ∧ pyRootItem st.lib.file.tree = some p ∧
      (∀ path d i it, PlacedAt (.storage kids) path d i → NamedFrom t (·.name) p.item path it →
        PySeesTimes api it (w.marks.entry i)) ∧
      ∀ (names : List (List Nat)) d i, PathNames names →
        PlacedAt (.storage kids) (names.map (storedName w.order)) d i →
        ∃ x, pyFileByPath env f.io (some t) (.str (pyPathChars names)) = .ok (some x) ∧
          PySeesTimes api x.item (w.marks.entry i) := by
  obtain ⟨h, t, f, ho⟩ := pyOpened hu w kids hst hn hr hh
  obtain ⟨m, htree⟩ := pyOpened_tree hu hst hn hr hh ho.tree
  have key : ∀ path d i it, PlacedAt (.storage kids) path d i →
      NamedFrom t (·.name) ⟨none, t.root⟩ path it → PySeesTimes api it (w.marks.entry i) := by
    intro path d i it hpl hnm
    obtain ⟨h1, h2⟩ := placed_times hst htree hn.distinct hpl hnm
    have hm := hst.marks.entry i
    refine ⟨h1, h2, ?_, ?_⟩
    · unfold pyItemCreationTime itemCreationTime
      rw [h1]
      exact shows_instant hapi hm.created
    · unfold pyItemModificationTime itemModificationTime
      rw [h2]
      exact shows_instant hapi hm.modified
  refine ⟨h, t, f, _, ho.handle, ho.tree, ho.ctx, by rw [ho.tree]; rfl, key, ?_⟩
  intro names d i hpn hpl
  obtain ⟨x, h1, -⟩ := ho.text.found names d hpn (placedAt_docAt hpl)
  refine ⟨⟨fileClass x.entry, x⟩, ?_, ?_⟩
  · unfold pyFileByPath
    rw [pyPathChars_format hp hpn]
    simp only [Res.ok_bind]
    unfold pyItemByPath
    rw [ho.order, show rootItem (some t) = some ⟨none, t.root⟩ from rfl, h1]
    rfl
  · rw [itemByPath_walk hu.dec8 _ t _ hpn] at h1
    exact key _ d i x hpl (walk_named (compares8 hu _) names _ x _ ho.shows hn
      (fun cs hc => (hpn cs hc).1) h1)

/-- In the document of `Props/Marks.lean`, the stream object at the path with `Ä` and an emoji says that it was
  modified on 1 January 2020 at 12:00 and 4 tenths of a microsecond, as an integer and as a datetime. -/
example (e : Endian) : ∃ st h t f x, PyReachable plainPyEnv st ∧ st.lib.file.handle = some h ∧
    st.lib.file.tree = some t ∧ st.lib.file.ctx (st.lib.world.dev h) = some f ∧
    pyFileByPath plainPyEnv f.io (some t) (.str [0x5c, 0xc4, 0x5c, 0x1f600]) = .ok (some x) ∧
    pyItemModification x.item = 132223536000000004 ∧ pyItemCreation x.item = 4 ∧
    pyItemModificationTime pythonApi x.item = .ok ⟨2020, 1, 1, 12, 0, 0, 0⟩ := by
  obtain ⟨st, hr, hh⟩ := stored_open ⟨e, 9, 6, 4096, datedMarks⟩ (unicodeDoc e) (datedDoc_storable e) (unicodeDoc_text e)
  obtain ⟨h, t, f, p, h1, h2, h3, h4, h5, h6⟩ := C91_python_times_partial (env := plainPyEnv)
    plainPy_isPyCodec plainUna_isLibuna pythonApi_isPython ⟨e, 9, 6, 4096, datedMarks⟩ (unicodeDoc e)
    (datedDoc_storable e) (unicodeDoc_text e) hr hh
  obtain ⟨x, hx1, hx2⟩ := h6 [[0xc4], [0x1f600]] _ _
    (by intro cs hcs; simp at hcs; rcases hcs with rfl | rfl <;> decide) (datedDoc_placed e)
  refine ⟨st, h, t, f, x, hr, h1, h2, h3, hx1, hx2.modified, hx2.created, ?_⟩
  refine hx2.modifiedTime.shown _ ⟨by decide, by decide, by decide, by decide, by decide, by decide,
    by decide⟩ ?_ ?_
  · show _ = filetimeMicros 132223536000000004
    decide +kernel
  · show dayNumber 1601 1 1 + 132223536000000004 / 864000000000 ≠ _
    decide +kernel

end Olecf.Props
