import Verif.Lemmas.EncodeSet
import Verif.Props.PropSet
import Verif.Props.ExportDoc

/-
  C67: a property set that is stored in a stream of a document is the one the library gives for it.
-/

namespace Olecf.Props
open Olecf Olecf.Spec

/-! ### The content of a stream determines the property set in it -/

theorem fixedTypes_size : ∀ {t n m : Nat}, (t, n) ∈ fixedTypes → (t, m) ∈ fixedTypes → n = m := by
  have : ∀ a ∈ fixedTypes, ∀ b ∈ fixedTypes, a.1 = b.1 → a.2 = b.2 := by decide
  intro t n m h1 h2
  exact this _ h1 _ h2 rfl

theorem fixedTypes_other {t n : Nat} (h : (t, n) ∈ fixedTypes) :
    t ≠ 0x1e ∧ t ≠ 0x1f ∧ t ∉ sizedTypes ∧ t ∉ multiTypes ∧ t ∈ fixedTypes.map (·.1) := by
  have : ∀ a ∈ fixedTypes, a.1 ≠ 0x1e ∧ a.1 ≠ 0x1f ∧ a.1 ∉ sizedTypes ∧ a.1 ∉ multiTypes ∧
    a.1 ∈ fixedTypes.map (·.1) := by decide
  exact this _ h

theorem valueAt_type {c : Content} {e : Endian} {pos t : Nat} {d : Option Bytes}
    (h : ValueAt c e pos t d) : c.word e pos = some t := by
  cases h <;> assumption

theorem valueAt_unique {c : Content} {e : Endian} {pos t t' : Nat} {d d' : Option Bytes}
    (h : ValueAt c e pos t d) (h' : ValueAt c e pos t' d') : t = t' ∧ d = d' := by
  have ht : t = t' := by
    have := (valueAt_type h).symm.trans (valueAt_type h')
    injection this
  subst ht
  refine ⟨rfl, ?_⟩
  have hs : 0x1e ∉ sizedTypes ∧ 0x1f ∉ sizedTypes ∧ 0x1e ∉ multiTypes ∧ 0x1f ∉ multiTypes := by decide
  have hms : ∀ x ∈ sizedTypes, x ∉ multiTypes := by decide
  cases h with
  | fixed hw hm hb =>
    obtain ⟨g1, g2, g3, g4, g5⟩ := fixedTypes_other hm
    cases h' with
    | fixed hw' hm' hb' =>
      cases fixedTypes_size hm hm'
      rw [hb] at hb'; exact hb'
    | absent _ h _ => rcases h with h | h | h <;> contradiction
    | ascii | unicode | sized | multi | other => contradiction
  | absent hw hm hz =>
    cases h' with
    | fixed _ hm' _ =>
      obtain ⟨g1, g2, g3, _⟩ := fixedTypes_other hm'
      rcases hm with h | h | h <;> contradiction
    | absent | multi | other => rfl
    | ascii _ hk h0 | unicode _ hk h0 => rw [hz] at hk; cases hk; cases h0
    | sized _ _ hk h0 => rw [hz] at hk; cases hk; cases h0
  | ascii hw hk h0 hm hb =>
    cases h' with
    | fixed _ hm' _ => exact absurd rfl (fixedTypes_other hm').1
    | absent _ _ hz => rw [hz] at hk; cases hk; cases h0
    | ascii _ hk' _ _ hb' => rw [hk] at hk'; cases hk'; rw [hb] at hb'; cases hb'; rfl
    | sized _ h => exact absurd h hs.1
    | multi _ h => exact absurd h hs.2.2.1
    | other _ _ h => exact absurd rfl h
  | unicode hw hk h0 hm hb =>
    cases h' with
    | fixed _ hm' _ => exact absurd rfl (fixedTypes_other hm').2.1
    | absent _ _ hz => rw [hz] at hk; cases hk; cases h0
    | unicode _ hk' _ _ hb' => rw [hk] at hk'; cases hk'; rw [hb] at hb'; cases hb'; rfl
    | sized _ h => exact absurd h hs.2.1
    | multi _ h => exact absurd h hs.2.2.2
    | other _ _ _ h => exact absurd rfl h
  | sized hw ht hk h0 hm hb =>
    cases h' with
    | fixed _ hm' _ => exact absurd ht (fixedTypes_other hm').2.2.1
    | absent _ _ hz => rw [hz] at hk; cases hk; cases h0
    | ascii => exact absurd ht hs.1
    | unicode => exact absurd ht hs.2.1
    | sized _ _ hk' _ _ hb' => rw [hk] at hk'; cases hk'; rw [hb] at hb'; exact hb'
    | multi _ h => exact absurd h (hms _ ht)
    | other _ _ _ _ h => exact absurd ht h
  | multi hw ht hn hv =>
    cases h' with
    | fixed _ hm' _ => exact absurd ht (fixedTypes_other hm').2.2.2.1
    | absent | multi | other => rfl
    | ascii => exact absurd ht hs.2.2.1
    | unicode => exact absurd ht hs.2.2.2
    | sized _ h => exact absurd ht (hms _ h)
  | other hw h1 h2 h3 h4 h5 =>
    cases h' with
    | fixed _ hm' _ => exact absurd (fixedTypes_other hm').2.2.2.2 h1
    | absent | multi | other => rfl
    | ascii => exact absurd rfl h2
    | unicode => exact absurd rfl h3
    | sized _ h => exact absurd h h4

/-- Two lists whose members agree, of the same length. -/
theorem ext_some {α : Type} {a b : List α} (hl : a.length = b.length)
    (h : ∀ (i : Nat) x y, a[i]? = some x → b[i]? = some y → x = y) : a = b := by
  apply List.ext_getElem hl
  intro i h1 h2
  exact h i _ _ (List.getElem?_eq_getElem h1) (List.getElem?_eq_getElem h2)

/-- C67, the content of a stream holds one property set only. -/
theorem C67_held_set_unique {c : Content} {e e' : Endian} {s s' : SetValue} (h : HoldsSet c e s)
    (h' : HoldsSet c e' s') : e = e' ∧ s = s' := by
  obtain ⟨b, hb, h1, h2, h3, h4⟩ := h
  obtain ⟨b', hb', h1', h2', h3', h4'⟩ := h'
  rw [hb] at hb'
  cases hb'
  have he : e = e' := by
    rw [h1] at h1'
    cases e <;> cases e' <;> first | rfl | (exact absurd h1' (by decide))
  subst he
  refine ⟨rfl, ?_⟩
  obtain ⟨cid, secs⟩ := s
  obtain ⟨cid', secs'⟩ := s'
  simp only at h2 h3 h4 h2' h3' h4'
  congr 1
  · rw [← h2, ← h2']
  · refine ext_some (by omega) ?_
    intro i x y hx hy
    obtain ⟨b, hb, g1, p, hp, g2, g3⟩ := h4 i x hx
    obtain ⟨b', hb', g1', p', hp', g2', g3'⟩ := h4' i y hy
    rw [hb] at hb'
    cases hb'
    rw [hp] at hp'
    cases hp'
    obtain ⟨xc, xp⟩ := x
    obtain ⟨yc, yp⟩ := y
    simp only at g1 g2 g3 g1' g2' g3'
    congr 1
    · rw [← g1, ← g1']
    · refine ext_some (by omega) ?_
      intro j u v hu hv
      obtain ⟨b, hb, k1, k2, k3⟩ := g3 j u hu
      obtain ⟨b', hb', k1', k2', k3'⟩ := g3' j v hv
      rw [hb] at hb'
      cases hb'
      obtain ⟨l1, l2⟩ := valueAt_unique k3 k3'
      obtain ⟨ui, ut, ud⟩ := u
      obtain ⟨vi, vt, vd⟩ := v
      simp only at k1 k1' l1 l2
      rw [k1] at k1'
      rw [k1', l1, l2]

/-! ### The writer -/

/-- C67, a written property set: its bytes hold it, in either byte order. -/
theorem C67_written_set_held {e : Endian} {s : SetValue} (hw : WritableSet e s) :
    HoldsSet (bytesContent (encodeSet e s)) e s := encodeSet_holds hw

/-- C67, the writer loses nothing: property sets with the same bytes are the same. -/
theorem C67_encode_set_injective {e e' : Endian} {s s' : SetValue} (hw : WritableSet e s)
    (hw' : WritableSet e' s') (h : encodeSet e s = encodeSet e' s') : e = e' ∧ s = s' := by
  have h1 := encodeSet_holds hw
  rw [h] at h1
  exact C67_held_set_unique h1 (encodeSet_holds hw')

/-! ### Property sets in documents -/

theorem named_itemAt {t : Tree} {nameOf : DirEntry → Bytes} {ns : List Bytes} {it : Item}
    (h : NamedFrom t nameOf ⟨none, t.root⟩ ns it) : ∃ q, itemAt t q = some it := by
  induction h with
  | here => exact ⟨[], rfl⟩
  | @sub ns it s i _ hi ih =>
    obtain ⟨q, hq⟩ := ih
    exact ⟨q ++ [i], (itemFrom_snoc t q _ i s).2 ⟨it, hq, hi⟩⟩

/-- C67: a document with a property set (little endian, less than 65536 sections) in one of its
  streams.  Any file object that is not open, whatever was done with it before, opens the file, finds
  an item by the names of the path to the stream, and reads the property set from this item whatever
  the position of the stream. -/
theorem C67_set_in_document {content : Bytes} {names : List Bytes} {doc : Doc}
    (hf : FileHolds content names doc)
    (cmp : Bytes → Bytes → Option Bool) (hcmp : ∀ n ∈ names, Comparable cmp n)
    (st : FileState) (hst : Reachable cmp st) (hclosed : st.file.handle = none)
    (h : HandleId) (hdev : st.world.dev h = Dev.ofBytes content)
    (flags : Nat) (hfl : flags % 4 = 1) :
    (openHandle cmp h flags {} st).1 = .ok () ∧
    ∃ t f root, (openHandle cmp h flags {} st).2.file.tree = some t ∧
      (openHandle cmp h flags {} st).2.file.ctx
        ((openHandle cmp h flags {} st).2.world.dev h) = some f ∧
      rootItem (some t) = some root ∧
      ∀ (path : List Bytes) (data : Bytes) (s : SetValue), DocAt doc path (.stream data) →
        data.length < 2 ^ 31 → HoldsSet (bytesContent data) .little s →
        s.sections.length < 65536 →
        ∃ it, NamedFrom t (·.name) root path it ∧
          ∀ cur : Nat, ∃ ps q, readSet f it.entry cur = (.ok ps, q) ∧ seenSet ps = s := by
  obtain ⟨hok, t, f, root, ht, hctx, hroot, hshow⟩ :=
    C47_document_shown hf cmp hcmp st hst hclosed h hdev flags hfl
  refine ⟨hok, t, f, root, ht, hctx, hroot, ?_⟩
  intro path data s hd hsz hs hn
  cases hroot
  obtain ⟨it, hname, hit⟩ := docAt_named (g := id) hshow hd
  rw [List.map_id] at hname
  refine ⟨it, hname, fun cur => ?_⟩
  obtain ⟨f', list, m, hctx', _, hwf, _, _, _, _, _, _, hfits, hmem⟩ :=
    C52_opened_well_formed cmp h flags {} st (reachable_inv hst).closed hok t ht
  rw [hctx] at hctx'
  cases hctx'
  obtain ⟨q, hq⟩ := named_itemAt hname
  cases hit with
  | stream htype _ hsize hread =>
    have hu : 0 < unitOf f it.entry := by
      unfold unitOf
      split
      · exact hwf.short.1
      · exact hwf.ss.1
    refine C38_from_stream_bytes_partial hwf ⟨(hfits _ (hmem q it hq)).1, htype, ?_⟩ hsize.symm
      (by omega) hread hs hn cur
    have := Nat.mul_le_mul_right 2147483647 hu
    omega

/-- C67, written and read: a property set within the limits, written into a stream of a document
  within the limits, is the one read from an item found by the names of the path to the stream. -/
theorem C67_written_set_read (w : Writer) (kids : List (Bytes × Doc)) (hst : Storable w kids)
    (cmp : Bytes → Bytes → Option Bool) (hcmp : ∀ n ∈ namesOfKids kids, Comparable cmp n)
    (st : FileState) (hr : Reachable cmp st) (hclosed : st.file.handle = none)
    (h : HandleId) (hdev : st.world.dev h = Dev.ofBytes (encodeFile w kids))
    (flags : Nat) (hfl : flags % 4 = 1) :
    (openHandle cmp h flags {} st).1 = .ok () ∧
    ∃ t f root, (openHandle cmp h flags {} st).2.file.tree = some t ∧
      (openHandle cmp h flags {} st).2.file.ctx
        ((openHandle cmp h flags {} st).2.world.dev h) = some f ∧
      rootItem (some t) = some root ∧
      ∀ (path : List Bytes) (s : SetValue),
        DocAt (.storage kids) path (.stream (encodeSet .little s)) →
        WritableSet .little s → s.sections.length < 65536 →
        ∃ it, NamedFrom t (·.name) root path it ∧
          ∀ cur : Nat, ∃ ps q, readSet f it.entry cur = (.ok ps, q) ∧ seenSet ps = s := by
  obtain ⟨hok, t, f, root, h1, h2, h3, h4⟩ := C67_set_in_document (encodeFile_holds hst) cmp (by
    intro n hn
    rcases List.mem_cons.1 hn with rfl | hn
    · exact rootName_comparable _ _
    · exact hcmp n hn) st hr hclosed h hdev flags hfl
  exact ⟨hok, t, f, root, h1, h2, h3, fun path s hd hw hn =>
    h4 path _ s hd hw.size (encodeSet_holds hw) hn⟩

/-! ### A concrete case -/

/-- A property set like the summary information of a document: one section with a code page, a title,
  a time, a 16-bit string, an empty string, a clipboard value, and a vector of strings without
  members; and a section without properties. -/
def summarySet : SetValue :=
  { classId := List.replicate 16 0
    sections :=
      [ { classId := List.replicate 16 7
          properties :=
            [ ⟨1, 0x02, some [0xe4, 0x04]⟩,
              ⟨2, 0x1e, some [0x54, 0x69, 0x74, 0]⟩,
              ⟨12, 0x40, some [1, 2, 3, 4, 5, 6, 7, 8]⟩,
              ⟨3, 0x1f, some [0x41, 0, 0x42, 0, 0, 0]⟩,
              ⟨4, 0x1e, none⟩,
              ⟨17, 0x47, some [9, 9, 9]⟩,
              ⟨13, 0x101e, none⟩ ] },
        { classId := List.replicate 16 8, properties := [] } ] }

theorem summarySet_writable (e : Endian) : WritableSet e summarySet := by
  refine ⟨by decide, by decide, ?_, by cases e <;> decide +kernel⟩
  intro sec hsec p hp
  simp only [summarySet, List.mem_cons, List.not_mem_nil, or_false] at hsec
  rcases hsec with rfl | rfl
  · simp only [List.mem_cons, List.not_mem_nil, or_false] at hp
    rcases hp with rfl | rfl | rfl | rfl | rfl | rfl | rfl
    · exact ⟨by decide, by decide, .fixed (n := 2) (by decide) rfl rfl⟩
    · exact ⟨by decide, by decide, .ascii rfl rfl (by decide) (by decide) (by decide)⟩
    · exact ⟨by decide, by decide, .fixed (n := 8) (by decide) rfl rfl⟩
    · exact ⟨by decide, by decide, .unicode rfl rfl (by decide) (by decide) (by decide) (by decide)⟩
    · exact ⟨by decide, by decide, .none (by decide) rfl⟩
    · exact ⟨by decide, by decide, .sized (by decide) rfl (by decide) (by decide)⟩
    · exact ⟨by decide, by decide, .none (by decide) rfl⟩
  · cases hp

/-- A document with this property set in a stream of a storage. -/
def summaryDoc : List (Bytes × Doc) :=
  [([65, 0], .stream [1, 2, 3]),
   ([66, 0], .storage [([5, 0, 83, 0], .stream (encodeSet .little summarySet))])]

theorem summary_length : (encodeSet .little summarySet).length = 216 := by decide +kernel

theorem summaryDoc_storable (e : Endian) : Storable ⟨e, 9, 6, 4096, {}⟩ summaryDoc := by
  refine (C60_storable e {} noMarks_fits (by simp [summaryDoc]) ?_ ?_).2 ?_
  · simp [summaryDoc, namesOfKids, Doc.names]
  · simp [summaryDoc, countKids, Doc.count]
  · simp [summaryDoc, streamsOfKids, Doc.streams, summary_length]

/-- The property set is read from the file with this document, in both byte orders of the file
  (C67_written_set_read). -/
example (e : Endian) (dev : HandleId → Dev)
    (hdev : dev (.user 1) = Dev.ofBytes (encodeFile ⟨e, 9, 6, 4096, {}⟩ summaryDoc)) :
    ∃ t f root, (openHandle cmpNone (.user 1) 1 {} ⟨OleFile.new, { sampleWorld with dev := dev }⟩).2.file.tree =
        some t ∧
      (openHandle cmpNone (.user 1) 1 {} ⟨OleFile.new, { sampleWorld with dev := dev }⟩).2.file.ctx
        ((openHandle cmpNone (.user 1) 1 {}
          ⟨OleFile.new, { sampleWorld with dev := dev }⟩).2.world.dev (.user 1)) = some f ∧
      rootItem (some t) = some root ∧
      ∃ it, NamedFrom t (·.name) root [[66, 0], [5, 0, 83, 0]] it ∧
        ∀ cur : Nat, ∃ ps q, readSet f it.entry cur = (.ok ps, q) ∧ seenSet ps = summarySet := by
  obtain ⟨_, t, f, root, h1, h2, h3, h4⟩ :=
    C67_written_set_read _ summaryDoc (summaryDoc_storable e) cmpNone (by
      intro n _
      exact ⟨fun _ => by simp [cmpNone], fun _ => by simp [cmpNone]⟩)
      ⟨OleFile.new, { sampleWorld with dev := dev }⟩
      ⟨_, [], ⟨rfl, rfl⟩, rfl⟩ rfl (.user 1) hdev 1 rfl
  refine ⟨t, f, root, h1, h2, h3, h4 _ summarySet ?_ (summarySet_writable _) (by decide)⟩
  exact DocAt.sub (path := [[66, 0]])
    (kids := [([5, 0, 83, 0], .stream (encodeSet .little summarySet))])
    (.sub (path := []) (n := [66, 0]) .here (by rw [summaryDoc]; exact .tail _ (.head _))) (.head _)

/-- A set with other data has other bytes (C67_encode_set_injective). -/
example : encodeSet .little summarySet ≠ encodeSet .big summarySet := fun h =>
  Endian.noConfusion (C67_encode_set_injective (summarySet_writable _) (summarySet_writable _) h).1

end Olecf.Props
