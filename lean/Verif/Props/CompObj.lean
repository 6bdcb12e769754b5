import Verif.Lemmas.CompObj
import Verif.Props.SetWrite

/-
  C101: the compound object stream: what is accepted, what becomes of memory, and what is wrong.
-/

namespace Olecf.Props
open Olecf Olecf.Spec Olecf.Lemmas

/-- C101, what is accepted: with memory for every request, the call succeeds at a position within the
  stream exactly if the bytes from the position of the item on are those of a compound object the
  library knows, and the item is then at the first byte after it. -/
theorem C101_reads {f : FileCtx} {d : DirEntry} (hf : WellFormedCtx f) (hd : EntryFits d) {data : Bytes}
    (hs : StreamHolds f d data) {h : Heap} (hh : Sound h) (hm : Ample h) (pos pos' : Nat)
    (hle : pos' ≤ data.length) :
    ((compObjectRead f d pos h).1 = .ok () ∧ (compObjectRead f d pos h).2.1 = pos') ↔
      ∃ (c : CompObj) (rest : Bytes), c.Known f.io.byteOrder data.length pos ∧
        data.drop pos = c.bytes f.io.byteOrder ++ rest ∧
        pos' = pos + (c.bytes f.io.byteOrder).length := by
  have hsz : data.length ≤ 2 ^ 63 - 1 := by
    have := hd.size
    rw [hs.size] at this
    omega
  obtain ⟨_, _, h3, h4, _⟩ := compObject_spec hf hd pos h hh
  rw [← compRun_iff hs hsz hle]
  constructor
  · rintro ⟨h1, h2⟩
    obtain ⟨q, hq, hr⟩ := h3 h1
    rw [hq] at h2
    have : q = pos' := by exact_mod_cast h2
    exact this ▸ hr
  · exact fun hr => h4 hm pos' hr

/-- C101, with any memory: a success at a position within the stream means that a compound object is
  there.  A request that is refused does not make one. -/
theorem C101_honest {f : FileCtx} {d : DirEntry} (hf : WellFormedCtx f) (hd : EntryFits d) {data : Bytes}
    (hs : StreamHolds f d data) {h : Heap} (hh : Sound h) (pos pos' : Nat)
    (hle : pos' ≤ data.length) (hok : (compObjectRead f d pos h).1 = .ok ())
    (hpos : (compObjectRead f d pos h).2.1 = pos') :
    ∃ (c : CompObj) (rest : Bytes), c.Known f.io.byteOrder data.length pos ∧
      data.drop pos = c.bytes f.io.byteOrder ++ rest ∧
      pos' = pos + (c.bytes f.io.byteOrder).length := by
  have hsz : data.length ≤ 2 ^ 63 - 1 := by
    have := hd.size
    rw [hs.size] at this
    omega
  obtain ⟨q, hq, hr⟩ := (compObject_spec hf hd pos h hh).2.2.1 hok
  rw [hq] at hpos
  have : q = pos' := by exact_mod_cast hpos
  subst this
  exact (compRun_iff hs hsz hle).1 hr

/-- C101, memory: whichever requests are refused and however the call ends, no block is freed twice
  or used after it was freed, and all of the memory is given back. -/
theorem C101_memory {f : FileCtx} {d : DirEntry} (hf : WellFormedCtx f) (hd : EntryFits d) {h : Heap}
    (hh : Sound h) (pos : Nat) :
    Sound (compObjectRead f d pos h).2.2 ∧
      ((compObjectRead f d pos h).1.Defined → SameBlocks h (compObjectRead f d pos h).2.2) :=
  ⟨(compObject_spec hf hd pos h hh).1, (compObject_spec hf hd pos h hh).2.1⟩

/-- C101, no undefined behaviour and no loop without end, for any content of the file, from a position
  that is not at the end of what 32 bits can tell.  Missing: larger positions, see
  `C101_position_violated`. -/
theorem C101_defined_partial {f : FileCtx} {d : DirEntry} (hf : WellFormedCtx f) (hd : EntryFits d)
    {h : Heap} (hh : Sound h) {pos : Nat} (hp : CompReach f d pos) :
    (compObjectRead f d pos h).1.Defined :=
  (compObject_spec hf hd pos h hh).2.2.2.2 hp

/-! ### From the bytes of a file -/

theorem headerReadData_order {d : Bytes} {msat t : AllocTable} {h : FileHeader}
    (hr : headerReadData d msat = .ok (h, t)) : byteOrderMark h.byteOrder <+: d.drop 28 := by
  obtain ⟨⟨hl, hs, e, he, hx⟩, hm⟩ := (C01_header_data_acceptance d msat).1.1 ⟨h, t, hr⟩
  rw [headerReadData_bom msat hl hm hs he, if_pos hx] at hr
  injection hr with hr
  injection hr with h1 _
  rw [← h1]
  exact he

/-- The byte order of an open file is the one its header tells. -/
theorem opened_order {cmp : Bytes → Bytes → Option Bool} {h : HandleId} {flags : Nat} {flt : Faults}
    {st : FileState} (he : st.file.handle = none → st.file.Empty)
    (hok : (openHandle cmp h flags flt st).1 = .ok ()) {content : Bytes}
    (hdev : st.world.dev h = Dev.ofBytes content) {e : Endian}
    (hord : byteOrderMark e <+: content.drop 28) :
    (openHandle cmp h flags flt st).2.file.io.byteOrder = e := by
  obtain ⟨l, hdr, t0, list, tree, ho, _, _⟩ := openHandle_loaded he hok
  have hh := ho.hheader
  rw [hdev] at hh
  have hacc := (C01_file_header_acceptance content ⟨List.replicate 109 0⟩).1 ⟨hdr, t0, hh⟩
  have hlen : (content.take 512).length = 512 := by
    have := hacc.1
    simp only [List.length_take] at this ⊢
    omega
  have hh' : headerReadData (content.take 512) ⟨List.replicate 109 0⟩ = .ok (hdr, t0) := by
    unfold headerRead Dev.get Dev.ofBytes at hh
    simpa [hlen] using hh
  have h1 := headerReadData_order hh'
  have h2 : byteOrderMark hdr.byteOrder <+: content.drop 28 := by
    refine h1.trans ?_
    rw [List.drop_take]
    exact List.take_prefix _ _
  rw [ho.hio, bom_unique hord h2]
  cases (createTree list cmp).shortStart <;> rfl

/-- The streams of a document, as items of the open file. -/
theorem document_streams {content : Bytes} {names : List Bytes} {doc : Doc}
    (hf : FileHolds content names doc) {e : Endian} (hord : byteOrderMark e <+: content.drop 28)
    (cmp : Bytes → Bytes → Option Bool) (hcmp : ∀ n ∈ names, Comparable cmp n)
    (st : FileState) (hst : Reachable cmp st) (hclosed : st.file.handle = none)
    (h : HandleId) (hdev : st.world.dev h = Dev.ofBytes content)
    (flags : Nat) (hfl : flags % 4 = 1) :
    (openHandle cmp h flags {} st).1 = .ok () ∧
    ∃ t f root, (openHandle cmp h flags {} st).2.file.tree = some t ∧
      (openHandle cmp h flags {} st).2.file.ctx
        ((openHandle cmp h flags {} st).2.world.dev h) = some f ∧
      rootItem (some t) = some root ∧ WellFormedCtx f ∧ f.io.byteOrder = e ∧
      ∀ (path : List Bytes) (data : Bytes), DocAt doc path (.stream data) →
        ∃ it, NamedFrom t (·.name) root path it ∧ EntryFits it.entry ∧ StreamHolds f it.entry data := by
  obtain ⟨hok, t, f, root, ht, hctx, hroot, hshow⟩ :=
    C47_document_shown hf cmp hcmp st hst hclosed h hdev flags hfl
  have horder : f.io.byteOrder = e := by
    rw [← opened_order (reachable_inv hst).closed hok hdev hord]
    unfold OleFile.ctx at hctx
    split at hctx
    · cases hctx; rfl
    · cases hctx
  obtain ⟨f', list, m, hctx', _, hwf, _, _, _, _, _, _, hfits, hmem⟩ :=
    C52_opened_well_formed cmp h flags {} st (reachable_inv hst).closed hok t ht
  rw [hctx] at hctx'
  cases hctx'
  refine ⟨hok, t, f, root, ht, hctx, hroot, hwf, horder, ?_⟩
  intro path data hd
  cases hroot
  obtain ⟨it, hname, hit⟩ := docAt_named (g := id) hshow hd
  rw [List.map_id] at hname
  obtain ⟨q, hq⟩ := named_itemAt hname
  cases hit with
  | stream htype _ hsize hread => exact ⟨it, hname, (hfits _ (hmem q it hq)).1, htype, hsize, hread⟩

/-- C101, from the bytes of a file: the compound object of a stream of a document that the library
  opens, in the byte order of the file, is accepted at the item found by the names of the path to the
  stream, if there is memory. -/
theorem C101_object_of_document {content : Bytes} {names : List Bytes} {doc : Doc}
    (hf : FileHolds content names doc) {e : Endian} (hord : byteOrderMark e <+: content.drop 28)
    (cmp : Bytes → Bytes → Option Bool) (hcmp : ∀ n ∈ names, Comparable cmp n)
    (st : FileState) (hst : Reachable cmp st) (hclosed : st.file.handle = none)
    (h : HandleId) (hdev : st.world.dev h = Dev.ofBytes content)
    (flags : Nat) (hfl : flags % 4 = 1) :
    (openHandle cmp h flags {} st).1 = .ok () ∧
    ∃ t f root, (openHandle cmp h flags {} st).2.file.tree = some t ∧
      (openHandle cmp h flags {} st).2.file.ctx
        ((openHandle cmp h flags {} st).2.world.dev h) = some f ∧
      rootItem (some t) = some root ∧
      ∀ (path : List Bytes) (c : CompObj) (rest : Bytes), DocAt doc path (.stream (c.bytes e ++ rest)) →
        c.Known e (c.bytes e ++ rest).length 0 →
        ∃ it, NamedFrom t (·.name) root path it ∧
          ∀ heap : Heap, Sound heap → Ample heap →
            (compObjectRead f it.entry (0 : Nat) heap).1 = .ok () ∧
            (compObjectRead f it.entry (0 : Nat) heap).2.1 = ((c.bytes e).length : Nat) ∧
            SameBlocks heap (compObjectRead f it.entry (0 : Nat) heap).2.2 := by
  obtain ⟨hok, t, f, root, ht, hctx, hroot, hwf, horder, hstream⟩ :=
    document_streams hf hord cmp hcmp st hst hclosed h hdev flags hfl
  subst horder
  refine ⟨hok, t, f, root, ht, hctx, hroot, ?_⟩
  intro path c rest hd hk
  obtain ⟨it, hname, hfit, hold⟩ := hstream path _ hd
  refine ⟨it, hname, fun heap hs hm => ?_⟩
  obtain ⟨h1, h2⟩ := (C101_reads hwf hfit hold hs hm 0 (c.bytes f.io.byteOrder).length (by simp)).2
    ⟨c, rest, hk, by simp, by simp⟩
  refine ⟨h1, h2, (C101_memory hwf hfit hs 0).2 ?_⟩
  rw [h1]
  trivial

theorem encodeFile_order {w : Writer} {kids : List (Bytes × Doc)} (hst : Storable w kids) :
    byteOrderMark w.order <+: (encodeFile w kids).drop 28 := by
  have hfit := headerOfFile_fits hst
  have h1 := headerReadData_order (C02_header_roundtrip w.order (headerOfFile w kids) hfit ⟨[]⟩)
  have hlen := encodeHeader_length w.order (headerOfFile w kids) hfit
  unfold encodeFile
  rw [List.append_assoc, List.drop_append_of_le_length (by omega)]
  exact h1.trans (List.prefix_append _ _)

/-! ### A concrete case -/

/-- A compound object as word processors write it, with the Unicode strings. -/
def wordObject : CompObj :=
  { header := List.replicate 28 7
    userType := [0x57, 0x6f, 0x72, 0x64, 0]
    clip := ⟨3, [0x44, 0x6f, 0]⟩
    reserved := [0x57, 0]
    tail := .unicode [0x57, 0, 0, 0] ⟨0, []⟩ [] }

theorem wordObject_length (e : Endian) : (wordObject.bytes e).length = 70 := by cases e <;> decide +kernel

theorem wordObject_known (e : Endian) {size : Nat} (h : 54 < size) : wordObject.Known e size 0 := by
  have hl : (wordObject.start e).length = 50 := by cases e <;> decide +kernel
  refine ⟨rfl, ⟨by decide, by unfold Modest; decide⟩, .inl ⟨rfl, by decide⟩, by unfold Modest; decide, ?_⟩
  show 0 + (wordObject.start e).length + 4 < size ∧ Modest [0x57, 0, 0, 0] ∧ Clip.Known ⟨0, []⟩ ∧ Modest []
  rw [hl]
  exact ⟨by omega, by unfold Modest; decide, .inl ⟨rfl, by decide⟩, by unfold Modest; decide⟩

/-- A document with it in a stream, followed by three more bytes. -/
def wordDoc (e : Endian) : List (Bytes × Doc) :=
  [([65, 0], .stream [1, 2, 3]), ([1, 0, 67, 0], .stream (wordObject.bytes e ++ [0, 0, 0]))]

theorem wordDoc_storable (e : Endian) : Storable ⟨e, 9, 6, 4096, {}⟩ (wordDoc e) := by
  refine (C60_storable e {} noMarks_fits (by simp [wordDoc]) ?_ ?_).2 ?_
  · simp [wordDoc, namesOfKids, Doc.names]
  · simp [wordDoc, countKids, Doc.count]
  · simp [wordDoc, streamsOfKids, Doc.streams, wordObject_length]

/-- It is accepted, in both byte orders of the file (C101_object_of_document). -/
example (e : Endian) (dev : HandleId → Dev)
    (hdev : dev (.user 1) = Dev.ofBytes (encodeFile ⟨e, 9, 6, 4096, {}⟩ (wordDoc e))) :
    ∃ t f root, (openHandle cmpNone (.user 1) 1 {} ⟨OleFile.new, { sampleWorld with dev := dev }⟩).2.file.tree =
        some t ∧
      (openHandle cmpNone (.user 1) 1 {} ⟨OleFile.new, { sampleWorld with dev := dev }⟩).2.file.ctx
        ((openHandle cmpNone (.user 1) 1 {}
          ⟨OleFile.new, { sampleWorld with dev := dev }⟩).2.world.dev (.user 1)) = some f ∧
      rootItem (some t) = some root ∧
      ∃ it, NamedFrom t (·.name) root [[1, 0, 67, 0]] it ∧
        (compObjectRead f it.entry (0 : Nat) (emptyHeap fun _ => true)).1 = .ok () ∧
        (compObjectRead f it.entry (0 : Nat) (emptyHeap fun _ => true)).2.1 = 70 := by
  obtain ⟨_, t, f, root, h1, h2, h3, h4⟩ :=
    C101_object_of_document (encodeFile_holds (wordDoc_storable e)) (encodeFile_order (wordDoc_storable e))
      cmpNone (by
        intro n _
        exact ⟨fun _ => by simp [cmpNone], fun _ => by simp [cmpNone]⟩)
      ⟨OleFile.new, { sampleWorld with dev := dev }⟩
      ⟨_, [], ⟨rfl, rfl⟩, rfl⟩ rfl (.user 1) hdev 1 rfl
  obtain ⟨it, hn, h5⟩ := h4 [[1, 0, 67, 0]] wordObject [0, 0, 0]
    (.sub (path := []) (n := [1, 0, 67, 0]) .here (by unfold wordDoc; exact .tail _ (.head _)))
    (wordObject_known e (by simp [wordObject_length]))
  obtain ⟨k1, k2, _⟩ := h5 (emptyHeap fun _ => true) ⟨rfl, List.nodup_nil, fun b hb => (by cases hb)⟩
    fun _ => rfl
  refine ⟨t, f, root, h1, h2, h3, it, hn, k1, ?_⟩
  rw [k2, wordObject_length]
  rfl

/-! ### What is wrong -/

/-- A file with sectors of 64 bytes: after the header there are four sectors that are linked to each
  other, with the given bytes. -/
def compFile (data : Bytes) : FileCtx :=
  { io := ⟨3, 62, 64, 64, 0, .little, 0, 0⟩
    dev := Dev.ofBytes (List.replicate 64 0 ++ data)
    sat := ⟨[1, 2, 3, 0xfffffffe]⟩
    ssat := ⟨[]⟩ }

theorem compFile_wellFormed (data : Bytes) : WellFormedCtx (compFile data) := by
  constructor <;> simp [compFile]

/-- The entry of a stream that starts at the given one of these sectors. -/
def compEntry (start size : Nat) : DirEntry := ⟨1, 2, [], 0, 0, 0, 0, 0, start, size⟩

/-- Memory for every request. -/
def ampleHeap : Heap := emptyHeap fun _ => true

/-- The start of a compound object: the header and the user type string "A". -/
def objectStart : Bytes := List.replicate 28 0 ++ [2, 0, 0, 0, 0x41, 0]

/-- C101 is violated by standard clipboard formats: a stream with a compound object as the format has
  it, its clipboard data the identifier of a standard format behind the number 0xffffffff, is
  refused.  The library compares with 0x0fffffff. -/
theorem C101_standard_clipboard_violated :
    let data := objectStart ++ [0xff, 0xff, 0xff, 0xff, 1, 0, 0, 0] ++ [0, 0, 0, 0]
    let f := compFile data
    let d := compEntry 0 data.length
    (streamRead f d 0 data.length).1.res = .ok data ∧
      data = (CompObj.mk (List.replicate 28 0) [0x41, 0] ⟨0xffffffff, [1, 0, 0, 0]⟩ [] .nothing).bytes .little ∧
      (compObjectRead f d 0 ampleHeap).1 = .err := by decide +kernel

theorem rawAt_piece {f : FileCtx} {d : DirEntry} {data : Bytes} (hs : StreamHolds f d data)
    (hsz : data.length ≤ 2 ^ 63 - 1) {pos : Nat} {b b' : Bytes} (h : 0 < b.length → RawAt f d pos b)
    (h' : Piece data pos b') (hl : b.length = b'.length) : b = b' := by
  rcases Nat.eq_zero_or_pos b.length with hz | hz
  · have hz' : b'.length = 0 := by omega
    rw [List.eq_nil_of_length_eq_zero hz, List.eq_nil_of_length_eq_zero hz']
  · have hle := h'.le
    obtain ⟨x, y, e, hx⟩ := (rawAt_iff hs hz (by omega) hsz).1 (h hz)
    obtain ⟨x', y', e', hx'⟩ := h'
    rw [e, List.append_assoc, List.append_assoc] at e'
    have h1 := (List.append_inj e' (by omega)).2
    exact (List.append_inj h1 hl).1

/-- One of the two numbers that stand in front of the identifier of a standard format is refused. -/
theorem standard_clipboard_refused {f : FileCtx} {d : DirEntry} (hf : WellFormedCtx f)
    (hd : EntryFits d) {data header userType rest : Bytes} (hs : StreamHolds f d data) {w pos : Nat}
    (hw : w = 0xfffffffe ∨ w = 0xffffffff) (hh : header.length = 28)
    (hu : userType.length < 2 ^ 32)
    (hdata : data.drop pos = header ++ (sized f.io.byteOrder userType ++ (enc32 f.io.byteOrder w ++ rest)))
    {heap : Heap} (hheap : Sound heap) :
    (compObjectRead f d pos heap).1 ≠ .ok () := by
  intro hok
  have hsz : data.length ≤ 2 ^ 63 - 1 := by
    have := hd.size
    rw [hs.size] at this
    omega
  have hpos : pos ≤ data.length := by
    have := congrArg List.length hdata
    simp [hh] at this
    omega
  have hp : Piece data pos (header ++ (enc32 f.io.byteOrder userType.length ++ (userType ++
      (enc32 f.io.byteOrder w ++ rest)))) := by
    refine ⟨data.take pos, [], ?_, by simp; omega⟩
    rw [List.append_nil, ← List.append_assoc _ userType]
    show data = data.take pos ++ (header ++ (sized f.io.byteOrder userType ++ (enc32 f.io.byteOrder w ++ rest)))
    rw [← hdata, List.take_append_drop]
  obtain ⟨q, _, c, hk, hrun, _⟩ := (compObject_spec hf hd pos heap hheap).2.2.1 hok
  unfold compPieces at hrun
  rw [run_append] at hrun
  obtain ⟨⟨r1, r2, r3, r4, _⟩, _⟩ := hrun
  have hlt : c.userType.length < 2 ^ 32 := by
    have : c.userType.length ≤ 2 ^ 27 := hk.userType.2
    omega
  have r4' : 0 < (enc32 f.io.byteOrder c.clip.word).length →
      RawAt f d (pos + 28 + 4 + c.userType.length) (enc32 f.io.byteOrder c.clip.word) := by
    rw [hk.header, enc32_length f.io.byteOrder c.userType.length] at r4
    exact r4
  rw [hk.header] at r2
  have p2 := hp.right
  rw [hh] at p2
  have e2 := rawAt_piece hs hsz r2 p2.left (by simp)
  have hlen : c.userType.length = userType.length := by
    rw [← u32At_enc32 f.io.byteOrder hlt, ← u32At_enc32 f.io.byteOrder hu, e2]
  have p3 := p2.right
  rw [enc32_length] at p3
  have p4 := p3.right
  rw [← hlen] at p4
  have e4 := rawAt_piece hs hsz r4' p4.left (by simp)
  have hcw : c.clip.word < 2 ^ 32 := by
    have := hk.clip
    unfold Clip.Known at this
    omega
  have : c.clip.word = w := by
    rw [← u32At_enc32 f.io.byteOrder hcw, e4, u32At_enc32 f.io.byteOrder (by omega)]
  have hkc := hk.clip
  unfold Clip.Known at hkc
  omega

/-- C101 is violated by every standard clipboard format: whatever the header, the user type string and the
  rest, the compound object of a document that has one of the two numbers that stand in front of the
  identifier of a standard format is refused, whatever memory there is. -/
theorem C101_clipboard_general_violated {content : Bytes} {names : List Bytes} {doc : Doc}
    (hf : FileHolds content names doc) {e : Endian} (hord : byteOrderMark e <+: content.drop 28)
    (cmp : Bytes → Bytes → Option Bool) (hcmp : ∀ n ∈ names, Comparable cmp n)
    (st : FileState) (hst : Reachable cmp st) (hclosed : st.file.handle = none)
    (h : HandleId) (hdev : st.world.dev h = Dev.ofBytes content)
    (flags : Nat) (hfl : flags % 4 = 1) :
    ∃ t f root, (openHandle cmp h flags {} st).2.file.tree = some t ∧
      (openHandle cmp h flags {} st).2.file.ctx
        ((openHandle cmp h flags {} st).2.world.dev h) = some f ∧
      rootItem (some t) = some root ∧
      ∀ (path : List Bytes) (c : CompObj) (rest : Bytes), DocAt doc path (.stream (c.bytes e ++ rest)) →
        c.header.length = 28 → c.userType.length < 2 ^ 32 →
        c.clip.word = 0xfffffffe ∨ c.clip.word = 0xffffffff →
        ∃ it, NamedFrom t (·.name) root path it ∧
          ∀ heap : Heap, Sound heap → (compObjectRead f it.entry (0 : Nat) heap).1 ≠ .ok () := by
  obtain ⟨hok, t, f, root, ht, hctx, hroot, hwf, horder, hstream⟩ :=
    document_streams hf hord cmp hcmp st hst hclosed h hdev flags hfl
  subst horder
  refine ⟨t, f, root, ht, hctx, hroot, ?_⟩
  intro path c rest hd hh hu hw
  obtain ⟨it, hname, hfit, hold⟩ := hstream path _ hd
  refine ⟨it, hname, fun heap hs => ?_⟩
  refine standard_clipboard_refused hwf hfit hold hw hh hu
    (rest := c.clip.data ++ (sized f.io.byteOrder c.reserved ++ (c.tail.bytes f.io.byteOrder ++ rest))) ?_ hs
  simp [CompObj.bytes, CompObj.start, Clip.bytes]

/-- The same object with a standard clipboard format. -/
def textObject : CompObj := { wordObject with clip := ⟨0xffffffff, [1, 0, 0, 0]⟩ }

def textDoc (e : Endian) : List (Bytes × Doc) := [([1, 0, 67, 0], .stream (textObject.bytes e))]

theorem textDoc_storable (e : Endian) : Storable ⟨e, 9, 6, 4096, {}⟩ (textDoc e) := by
  have hl : (textObject.bytes e).length = 71 := by cases e <;> decide +kernel
  refine (C60_storable e {} noMarks_fits (by simp [textDoc]) ?_ ?_).2 ?_
  · simp [textDoc, namesOfKids, Doc.names]
  · simp [textDoc, countKids, Doc.count]
  · simp [textDoc, streamsOfKids, Doc.streams, hl]

/-- It is refused (C101_clipboard_general_violated). -/
example (e : Endian) (dev : HandleId → Dev)
    (hdev : dev (.user 1) = Dev.ofBytes (encodeFile ⟨e, 9, 6, 4096, {}⟩ (textDoc e))) :
    ∃ t f root it, (openHandle cmpNone (.user 1) 1 {}
        ⟨OleFile.new, { sampleWorld with dev := dev }⟩).2.file.tree = some t ∧
      (openHandle cmpNone (.user 1) 1 {} ⟨OleFile.new, { sampleWorld with dev := dev }⟩).2.file.ctx
        ((openHandle cmpNone (.user 1) 1 {}
          ⟨OleFile.new, { sampleWorld with dev := dev }⟩).2.world.dev (.user 1)) = some f ∧
      NamedFrom t (·.name) root [[1, 0, 67, 0]] it ∧
      (compObjectRead f it.entry (0 : Nat) ampleHeap).1 ≠ .ok () := by
  obtain ⟨t, f, root, h1, h2, _, h4⟩ :=
    C101_clipboard_general_violated (encodeFile_holds (textDoc_storable e))
      (encodeFile_order (textDoc_storable e))
      cmpNone (by
        intro n _
        exact ⟨fun _ => by simp [cmpNone], fun _ => by simp [cmpNone]⟩)
      ⟨OleFile.new, { sampleWorld with dev := dev }⟩
      ⟨_, [], ⟨rfl, rfl⟩, rfl⟩ rfl (.user 1) hdev 1 rfl
  obtain ⟨it, hn, h5⟩ := h4 [[1, 0, 67, 0]] textObject []
    (.sub (path := []) (n := [1, 0, 67, 0]) .here (by unfold textDoc; rw [List.append_nil]; exact .head _))
    rfl (by decide) (.inr rfl)
  exact ⟨t, f, root, it, h1, h2, hn, h5 ampleHeap ⟨rfl, List.nodup_nil, fun b hb => (by cases hb)⟩⟩

/-- C101 is violated by reserved strings the format says to leave out, with all that follows, because
  of their size: a size above 0x28 that is more than the stream has is refused. -/
theorem C101_reserved_violated :
    let data := objectStart ++ [0, 0, 0, 0] ++ [0x29, 0, 0, 0]
    let f := compFile data
    let d := compEntry 0 data.length
    (streamRead f d 0 data.length).1.res = .ok data ∧
      (compObjectRead f d 0 ampleHeap).1 = .err := by decide +kernel

/-- C101 is violated by streams that end too early: what is behind the end of the stream in its last
  sector is read as a part of it.  Two streams with the same content, that ends before the size of the
  reserved string, one accepted and one refused; the accepted one is left behind its end. -/
theorem C101_slack_violated :
    let data := objectStart ++ [0, 0, 0, 0]
    let f := compFile (data ++ List.replicate 26 0)
    let f' := compFile (data ++ List.replicate 26 0xff)
    let d := compEntry 0 data.length
    (streamRead f d 0 data.length).1.res = .ok data ∧ (streamRead f' d 0 data.length).1.res = .ok data ∧
      (compObjectRead f d 0 ampleHeap).1 = .ok () ∧
      (compObjectRead f d 0 ampleHeap).2.1 = (data.length + 4 : Nat) ∧
      (compObjectRead f' d 0 ampleHeap).1 = .err := by decide +kernel

/-- C101 is violated by a second call: the first one succeeds and leaves the item behind the compound
  object, the second one starts from there and fails. -/
theorem C101_again_violated :
    let data := objectStart ++ [0, 0, 0, 0] ++ [0, 0, 0, 0]
    let f := compFile (data ++ List.replicate 22 0)
    let d := compEntry 0 data.length
    (compObjectRead f d 0 ampleHeap).1 = .ok () ∧
      (compObjectRead f d (compObjectRead f d 0 ampleHeap).2.1 (compObjectRead f d 0 ampleHeap).2.2).1 =
        .err := by decide +kernel

/-- The same file, with a container of short sectors of 64 bytes that starts at a sector of 512 bytes
  far behind the end of the file. -/
def farFile : FileCtx :=
  { io := ⟨3, 62, 512, 64, 4096, .little, 0x7fffffff, 0⟩
    dev := Dev.ofBytes []
    sat := ⟨[0xfffffffe]⟩
    ssat := ⟨[0xfffffffe]⟩ }

/-- C101 is violated at positions the item can be moved to: the position is not compared with the size
  of the stream, its sector number is cut to 32 bits, and the position in the file overflows.  A read of
  the stream from there tells the end of the stream. -/
theorem C101_position_violated :
    let d := compEntry 0 42
    let pos : Int := 2 ^ 63 - 2 ^ 38
    WellFormedCtx farFile ∧ EntryFits d ∧ streamSeek d 0 pos .set = (.ok pos, pos) ∧
      (streamRead farFile d pos 28).1.res = .ok [] ∧
      (compObjectRead farFile d pos ampleHeap).1 = .ub := by
  refine ⟨?_, ⟨by decide, by decide⟩, by decide +kernel, by decide +kernel, by decide +kernel⟩
  exact ⟨by decide, by decide, by decide, by decide, by decide⟩

/-- A stream of a file, within reach (C101_memory, C101_defined_partial). -/
example : WellFormedCtx (compFile [1]) ∧ EntryFits (compEntry 0 42) ∧ Sound ampleHeap ∧
    CompReach (compFile [1]) (compEntry 0 42) 0 := by
  refine ⟨compFile_wellFormed _, ⟨by decide, by decide⟩, ⟨rfl, List.nodup_nil, fun b hb => (by cases hb)⟩, ?_⟩
  unfold CompReach unitOf
  decide

end Olecf.Props
