import Verif.Lemmas.PropSet

/-
  C38 to C41 and C53: property sets.
-/

namespace Olecf.Props
open Spec

/-! ### Streams for examples -/

/-- A file with one sector, in which a stream has its data. -/
def setFile (data : Bytes) : FileCtx where
  io := { majorVersion := 3, minorVersion := 62, sectorSize := 512, shortSectorSize := 64,
          minStreamSize := 0, byteOrder := .little, shortStreamStart := 0, codepage := 1252 }
  dev := Dev.ofBytes (List.replicate 512 0 ++ data ++ List.replicate (512 - data.length) 0)
  sat := ⟨[EOC]⟩
  ssat := ⟨[]⟩

/-- Its directory entry. -/
def setEntry (data : Bytes) : DirEntry where
  id := 1
  type := 2
  name := []
  prev := UNUSED
  next := UNUSED
  sub := UNUSED
  created := 0
  modified := 0
  start := 0
  size := data.length

theorem setFile_wellFormed (data : Bytes) : WellFormedCtx (setFile data) where
  ss := (by decide : 0 < 512 ∧ 512 ≤ 32768)
  short := (by decide : 0 < 64 ∧ 64 ≤ 32768)
  start := (by decide : 0 < 2 ^ 32)
  sat := (by decide : [EOC].length ≤ 2 ^ 25 ∧ ∀ v ∈ [EOC], v < 2 ^ 32)
  ssat := (by decide : ([] : List Nat).length ≤ 2 ^ 25 ∧ ∀ v ∈ ([] : List Nat), v < 2 ^ 32)

theorem setFile_streamOk {data : Bytes} (h : data.length ≤ 512) :
    StreamOk (setFile data) (setEntry data) := by
  refine ⟨⟨(by decide : 0 < 2 ^ 32), ?_⟩, rfl, ?_⟩
  · show data.length < 2 ^ 32
    omega
  · have hu : unitOf (setFile data) (setEntry data) = 512 := by
      have hs : ¬ Small (setFile data) (setEntry data) := Nat.not_lt_zero _
      unfold unitOf
      rw [if_neg hs]
      rfl
    rw [hu]
    show data.length ≤ _
    omega

/-- The class identifiers of the examples. -/
def sampleClass (x : UInt8) : Bytes := List.replicate 16 x

/-- A property set with one section with four properties: a 16-bit integer, a string with data
  behind its terminator, a string of 16-bit units, and a type the library does not know. -/
def sampleSetBytes (e : Endian) : Bytes :=
  setMark e ++ enc16 e 0 ++ enc32 e 5 ++ sampleClass 1 ++ enc32 e 1 ++
  sampleClass 2 ++ enc32 e 48 ++
  enc32 e 100 ++ enc32 e 4 ++
  enc32 e 2 ++ enc32 e 40 ++
  enc32 e 3 ++ enc32 e 48 ++
  enc32 e 4 ++ enc32 e 60 ++
  enc32 e 9 ++ enc32 e 76 ++
  enc32 e 2 ++ enc16 e 1252 ++ [0, 0] ++
  enc32 e 0x1e ++ enc32 e 4 ++ [65, 66, 0, 67] ++
  enc32 e 0x1f ++ enc32 e 4 ++ [65, 0, 0, 1, 0, 0, 7, 7] ++
  enc32 e 0x4711

/-- The property set that is meant. -/
def sampleSet : SetValue :=
  ⟨sampleClass 1, [⟨sampleClass 2,
    [⟨2, 2, some [0xe4, 4]⟩, ⟨3, 0x1e, some [65, 66, 0]⟩,
     ⟨4, 0x1f, some [65, 0, 0, 1, 0, 0]⟩, ⟨9, 0x4711, none⟩]⟩]⟩

/-- The stream of the example in a file. -/
def sampleSetContent : Content :=
  streamContent (setFile (sampleSetBytes .little)) (setEntry (sampleSetBytes .little))

theorem sample_holdsSet : HoldsSet sampleSetContent .little sampleSet := by
  refine ⟨(sampleSetBytes .little).take 28, by decide +kernel, by decide +kernel,
    by decide +kernel, by decide +kernel, ?_⟩
  intro i sec hi
  match i with
  | 0 =>
    cases hi
    refine ⟨((sampleSetBytes .little).drop 28).take 20, by decide +kernel, by decide +kernel,
      ((sampleSetBytes .little).drop 48).take 8, by decide +kernel, by decide +kernel, ?_⟩
    intro j p hj
    match j with
    | 0 =>
      cases hj
      refine ⟨((sampleSetBytes .little).drop 56).take 8, by decide +kernel, by decide +kernel,
        by decide +kernel, ?_⟩
      exact .fixed (n := 2) (by decide +kernel) (by decide) (by decide +kernel)
    | 1 =>
      cases hj
      refine ⟨((sampleSetBytes .little).drop 64).take 8, by decide +kernel, by decide +kernel,
        by decide +kernel, ?_⟩
      exact .ascii (k := 4) (b := [65, 66, 0, 67]) (by decide +kernel) (by decide +kernel)
        (by decide) (by decide) (by decide +kernel)
    | 2 =>
      cases hj
      refine ⟨((sampleSetBytes .little).drop 72).take 8, by decide +kernel, by decide +kernel,
        by decide +kernel, ?_⟩
      exact .unicode (k := 4) (b := [65, 0, 0, 1, 0, 0, 7, 7]) (by decide +kernel)
        (by decide +kernel) (by decide) (by decide) (by decide +kernel)
    | 3 =>
      cases hj
      refine ⟨((sampleSetBytes .little).drop 80).take 8, by decide +kernel, by decide +kernel,
        by decide +kernel, ?_⟩
      exact .other (by decide +kernel) (by decide) (by decide) (by decide) (by decide) (by decide)
    | j + 4 => simp at hj
  | i + 1 => simp [sampleSet] at hi

/-! ### C38: a set is read as it is serialised -/

/-- C38, little-endian sets, without a limit on the number of sections: only the lower 16 bits of
  the number of sections are looked at. -/
theorem C38_little_endian_sections {f : FileCtx} (h : WellFormedCtx f) {d : DirEntry}
    (hd : StreamOk f d) (hmax : d.size < 2 ^ 32 - 1) {s : SetValue}
    (hs : HoldsSet (streamContent f d) .little s) (cur : Nat) :
    ∃ ps q, readSet f d cur = (.ok ps, q) ∧
      seenSet ps = ⟨s.classId, s.sections.take (s.sections.length % 65536)⟩ := by
  obtain ⟨b, hb, hm, hc, hn, hsec⟩ := hs
  obtain ⟨l, q, hl, hmap⟩ := sectionsLoop_complete h hd hmax
    (s.sections.take (s.sections.length % 65536)) 28 28 (by
      intro i sec hi
      rw [List.getElem?_take] at hi
      split at hi
      · exact hsec i sec hi
      · cases hi)
  have hlen : (s.sections.take (s.sections.length % 65536)).length = u16At .little b 24 := by
    rw [List.length_take, ← hn]
    have h0 := byteAt_lt b 24
    have h1 := byteAt_lt b (24 + 1)
    have h2 := byteAt_lt b (24 + 2)
    have h3 := byteAt_lt b (24 + 3)
    have h16 : u32At .little b 24 % 65536 = u16At .little b 24 := by
      simp only [u32At, u16At]
      omega
    rw [h16, Nat.min_eq_left (by rw [← h16]; exact Nat.mod_le _ _)]
  rw [hlen] at hl
  refine ⟨⟨s.classId, l⟩, q, (readSet_ok h hd).2 ⟨b, .little, hb, hm, hc, hl⟩, ?_⟩
  unfold seenSet
  rw [hmap]

/-- C38: from a stream that holds a little-endian property set the library reads that set: its
  class identifier and for every section listed its class identifier and the identifiers, types
  and data of its properties.  The full claim is for both byte orders and all numbers of sections;
  it fails for big-endian sets (`C38_big_endian_violated`) and for 65536 sections and more
  (`C38_little_endian_sections`). -/
theorem C38_set_read_as_serialised_partial {f : FileCtx} (h : WellFormedCtx f) {d : DirEntry}
    (hd : StreamOk f d) (hmax : d.size < 2 ^ 32 - 1) {s : SetValue}
    (hs : HoldsSet (streamContent f d) .little s) (hn : s.sections.length < 65536) (cur : Nat) :
    ∃ ps q, readSet f d cur = (.ok ps, q) ∧ seenSet ps = s := by
  obtain ⟨ps, q, hr, hseen⟩ := C38_little_endian_sections h hd hmax hs cur
  refine ⟨ps, q, hr, ?_⟩
  rw [hseen, Nat.mod_eq_of_lt hn, List.take_length]

/-- The hypotheses are met by the example. -/
example : ∃ ps q, readSet (setFile (sampleSetBytes .little)) (setEntry (sampleSetBytes .little)) 7 =
    (.ok ps, q) ∧ seenSet ps = sampleSet :=
  C38_set_read_as_serialised_partial (setFile_wellFormed _) (setFile_streamOk (by decide +kernel))
    (by decide +kernel) sample_holdsSet (by decide) 7

/-- C38 is violated for big-endian sets: whatever set with up to 65535 sections a stream holds, a
  set without sections is read, as the number of sections is taken from the upper half of its
  field. -/
theorem C38_big_endian_violated {f : FileCtx} (h : WellFormedCtx f) {d : DirEntry}
    (hd : StreamOk f d) {s : SetValue} (hs : HoldsSet (streamContent f d) .big s)
    (hn : s.sections.length < 65536) (cur : Nat) :
    ∃ ps q, readSet f d cur = (.ok ps, q) ∧ seenSet ps = ⟨s.classId, []⟩ := by
  obtain ⟨b, hb, hm, hc, hnum, -⟩ := hs
  have h16 : u16At .big b 24 = 0 := by
    have h0 := byteAt_lt b 24
    have h1 := byteAt_lt b (24 + 1)
    have h2 := byteAt_lt b (24 + 2)
    have h3 := byteAt_lt b (24 + 3)
    rw [← hnum] at hn
    simp only [u32At, u16At] at hn ⊢
    omega
  refine ⟨⟨s.classId, []⟩, 28, (readSet_ok h hd).2 ⟨b, .big, hb, hm, hc, ?_⟩, rfl⟩
  rw [h16]
  rfl

/-- A big-endian set with a section and four properties is read as a set without sections. -/
example : readSet (setFile (sampleSetBytes .big)) (setEntry (sampleSetBytes .big)) 0 =
    (.ok ⟨sampleClass 1, []⟩, 28) := by decide +kernel

/-- Content that has all that other content has. -/
def Covers (c' c : Content) : Prop := ∀ pos n b, c pos n = some b → c' pos n = some b

theorem Covers.word {c' c : Content} (h : Covers c' c) {e : Endian} {pos v : Nat}
    (hw : c.word e pos = some v) : c'.word e pos = some v := by
  obtain ⟨b, hb, rfl⟩ := word_some.1 hw
  exact word_some.2 ⟨b, h _ _ _ hb, rfl⟩

theorem Covers.values {c' c : Content} (h : Covers c' c) {e : Endian} {pos n : Nat}
    (hv : ValuesAt c e pos n) : ValuesAt c' e pos n := by
  induction hv with
  | nil => exact .nil
  | cons hw h0 hm hb _ ih => exact .cons (h.word hw) h0 hm (h _ _ _ hb) ih

theorem Covers.value {c' c : Content} (h : Covers c' c) {e : Endian} {pos t : Nat}
    {data : Option Bytes} (hv : ValueAt c e pos t data) : ValueAt c' e pos t data := by
  cases hv with
  | fixed hw ht hb => exact .fixed (h.word hw) ht (h _ _ _ hb)
  | absent hw ht hk => exact .absent (h.word hw) ht (h.word hk)
  | ascii hw hk h0 hm hb => exact .ascii (h.word hw) (h.word hk) h0 hm (h _ _ _ hb)
  | unicode hw hk h0 hm hb => exact .unicode (h.word hw) (h.word hk) h0 hm (h _ _ _ hb)
  | sized hw ht hk h0 hm hb => exact .sized (h.word hw) ht (h.word hk) h0 hm (h _ _ _ hb)
  | multi hw ht hn hvs => exact .multi (h.word hw) ht (h.word hn) (h.values hvs)
  | other hw h1 h2 h3 h4 h5 => exact .other (h.word hw) h1 h2 h3 h4 h5

theorem Covers.holdsSet {c' c : Content} (h : Covers c' c) {e : Endian} {s : SetValue}
    (hs : HoldsSet c e s) : HoldsSet c' e s := by
  obtain ⟨b, hb, h1, h2, h3, h4⟩ := hs
  refine ⟨b, h _ _ _ hb, h1, h2, h3, ?_⟩
  intro i sec hi
  obtain ⟨b, hb, h1, b', hb', h2, h5⟩ := h4 i sec hi
  refine ⟨b, h _ _ _ hb, h1, b', h _ _ _ hb', h2, ?_⟩
  intro j p hj
  obtain ⟨b, hb, h1, h2, h3⟩ := h5 j p hj
  exact ⟨b, h _ _ _ hb, h1, h2, h.value h3⟩

/-- C38 in terms of the bytes of the stream: if a stream reads as `data` (C23, C24, C47), and
  `data` holds a little-endian property set, that set is read. -/
theorem C38_from_stream_bytes_partial {f : FileCtx} (h : WellFormedCtx f) {d : DirEntry}
    (hd : StreamOk f d) {data : Bytes} (hlen : data.length = d.size)
    (hmax : d.size < 2 ^ 32 - 1)
    (hread : ∀ cur size : Nat, size ≤ 2 ^ 63 - 1 →
      (streamRead f d cur size).1.res = .ok ((data.drop cur).take size))
    {s : SetValue} (hs : HoldsSet (bytesContent data) .little s) (hn : s.sections.length < 65536)
    (cur : Nat) :
    ∃ ps q, readSet f d cur = (.ok ps, q) ∧ seenSet ps = s := by
  refine C38_set_read_as_serialised_partial h hd hmax (Covers.holdsSet ?_ hs) hn cur
  intro pos n b hb
  unfold bytesContent at hb
  split at hb
  · next hle =>
    cases hb
    unfold streamContent
    rw [hread pos n (by omega)]
    simp only []
    rw [if_pos (by rw [List.length_take, List.length_drop]; omega)]
  · cases hb

/-- C38: nothing else is read.  If a set is read from a stream whose header declares less than
  65536 sections in little-endian byte order, and no offset of a value leaves 32 bits and no
  16-bit string declares 2^31 or more units, then the stream holds the set that was read. -/
theorem C38_only_what_is_there_partial {f : FileCtx} (h : WellFormedCtx f) {d : DirEntry}
    (hd : StreamOk f d) {cur : Nat} {ps : PropSet} {c : Int}
    (hr : readSet f d cur = (.ok ps, c))
    (hhead : ∀ b, streamContent f d 0 28 = some b →
      b.take 2 = setMark .little ∧ u32At .little b 24 < 65536)
    (hfit : ∀ i j b b', streamContent f d (28 + 20 * i) 20 = some b →
      streamContent f d (u32At .little b 16 + 8 + 8 * j) 8 = some b' →
      u32At .little b 16 + u32At .little b' 4 < 2 ^ 32 ∧
      UnitsFit (streamContent f d) .little (u32At .little b 16 + u32At .little b' 4)) :
    HoldsSet (streamContent f d) .little (seenSet ps) := by
  obtain ⟨b, e, hb, hm, hc, hl⟩ := (readSet_ok h hd).1 hr
  obtain ⟨hm', hlt⟩ := hhead b hb
  have he : e = .little := by
    rw [hm] at hm'
    cases e with
    | little => rfl
    | big => revert hm'; decide
  subst he
  obtain ⟨s1, s2, -⟩ := sectionsLoop_sound h hd _ 28 28 _ _ (by omega) hl
  refine ⟨b, hb, hm, hc, ?_, ?_⟩
  · show u32At .little b 24 = (ps.sections.map seenSection).length
    rw [List.length_map, s1]
    have h0 := byteAt_lt b 24
    have h1 := byteAt_lt b (24 + 1)
    have h2 := byteAt_lt b (24 + 2)
    have h3 := byteAt_lt b (24 + 3)
    simp only [u32At, u16At] at hlt ⊢
    omega
  · intro i sec hi
    have hi' : (ps.sections.map seenSection)[i]? = some sec := hi
    rw [List.getElem?_map, Option.map_eq_some_iff] at hi'
    obtain ⟨rs, hrs, rfl⟩ := hi'
    obtain ⟨b', hb', hcls, ⟨b'', hb'', hnum⟩, hprops⟩ := s2 i rs hrs
    refine ⟨b', hb', hcls, b'', hb'', ?_, ?_⟩
    · show _ = (rs.properties.map seenProperty).length
      rw [List.length_map, hnum]
    · intro j p hj
      have hj' : (rs.properties.map seenProperty)[j]? = some p := hj
      rw [List.getElem?_map, Option.map_eq_some_iff] at hj'
      obtain ⟨rp, hrp, rfl⟩ := hj'
      obtain ⟨bp, hbp, p1, p2, p3, -, -⟩ := hprops j rp hrp
      obtain ⟨f1, f2⟩ := hfit i j b' bp hb' hbp
      rw [Nat.mod_eq_of_lt f1] at p3
      refine ⟨bp, hbp, p1, p2, ?_⟩
      rw [seen_data]
      exact p3 f2

/-- C38: the sections and properties by their index: those of the set, and an error for every
  other index. -/
theorem C38_by_index (ps : PropSet) :
    ps.numberOfSections = (seenSet ps).sections.length ∧
    (∀ i : Nat, ∀ s, (seenSet ps).sections[i]? = some s →
      ∃ rs, ps.section_ i = .ok rs ∧ seenSection rs = s ∧
        rs.numberOfProperties = s.properties.length ∧
        (∀ j : Nat, ∀ p, s.properties[j]? = some p →
          ∃ rp, rs.property j = .ok rp ∧ seenProperty rp = p) ∧
        ∀ j : Int, (j < 0 ∨ j ≥ s.properties.length) → rs.property j = .err) ∧
    ∀ i : Int, (i < 0 ∨ i ≥ (seenSet ps).sections.length) → ps.section_ i = .err := by
  have hout : ∀ {α : Type} (l : List α) (i : Int), (i < 0 ∨ i ≥ l.length) → arrayGet l i = .err := by
    intro α l i hi
    unfold arrayGet
    by_cases h0 : i < 0
    · rw [if_pos h0]
    · rw [if_neg h0, List.getElem?_eq_none (by omega)]
  have hin : ∀ {α : Type} (l : List α) (i : Nat) (a : α), l[i]? = some a →
      arrayGet l (i : Int) = .ok a := by
    intro α l i a hi
    unfold arrayGet
    rw [if_neg (by omega), Int.toNat_natCast, hi]
  refine ⟨?_, ?_, ?_⟩
  · show (ps.sections.length : Int) = ((ps.sections.map seenSection).length : Int)
    rw [List.length_map]
  · intro i s hi
    have hi' : (ps.sections.map seenSection)[i]? = some s := hi
    rw [List.getElem?_map, Option.map_eq_some_iff] at hi'
    obtain ⟨rs, hrs, rfl⟩ := hi'
    refine ⟨rs, hin _ i rs hrs, rfl, ?_, ?_, ?_⟩
    · show (rs.properties.length : Int) = ((rs.properties.map seenProperty).length : Int)
      rw [List.length_map]
    · intro j p hj
      have hj' : (rs.properties.map seenProperty)[j]? = some p := hj
      rw [List.getElem?_map, Option.map_eq_some_iff] at hj'
      obtain ⟨rp, hrp, rfl⟩ := hj'
      exact ⟨rp, hin _ j rp hrp, rfl⟩
    · intro j hj
      apply hout
      have : (seenSection rs).properties.length = rs.properties.length := List.length_map _
      rw [this] at hj
      exact hj
  · intro i hi
    apply hout
    have : (seenSet ps).sections.length = ps.sections.length := List.length_map _
    rw [this] at hi
    exact hi

/-! ### C39: values -/

/-- A property of a set that was read from a stream in byte order `e`. -/
def ReadProperty (f : FileCtx) (d : DirEntry) (e : Endian) (p : PropValue) : Prop :=
  ∃ (cur : Nat) (ps : PropSet) (c : Int) (s : PropSection) (b : Bytes),
    readSet f d cur = (.ok ps, c) ∧ s ∈ ps.sections ∧ p ∈ s.properties ∧
    streamContent f d 0 28 = some b ∧ b.take 2 = setMark e

theorem setMark_inj {e e' : Endian} (h : setMark e = setMark e') : e = e' := by
  cases e <;> cases e' <;> first | rfl | (revert h; decide)

theorem readProperty_read {f : FileCtx} (h : WellFormedCtx f) {d : DirEntry} (hd : StreamOk f d)
    {e : Endian} {p : PropValue} (hp : ReadProperty f d e p) :
    ∃ sec pos, PropRead f d e sec pos p := by
  obtain ⟨cur, ps, c, s, b, hr, hs, hmem, hb, hm⟩ := hp
  obtain ⟨b', e', hb', hm', -, hl⟩ := (readSet_ok h hd).1 hr
  rw [hb] at hb'
  cases hb'
  rw [hm] at hm'
  cases setMark_inj hm'
  obtain ⟨-, s2, -⟩ := sectionsLoop_sound h hd _ 28 28 _ _ (by omega) hl
  obtain ⟨i, hi⟩ := List.getElem?_of_mem hs
  obtain ⟨b', -, -, -, hps⟩ := s2 i s hi
  obtain ⟨j, hj⟩ := List.getElem?_of_mem hmem
  exact ⟨_, _, hps j p hj⟩

/-- C39: every property of every set that is read has the type and the data of a value of the
  stream: as many bytes as its type or its declared size says, strings cut after their first
  terminator, nothing for types that are not known.  The full claim includes 16-bit strings that
  declare 2^31 units and more, for which it fails (`C39_unit_count_wrap_violated`). -/
theorem C39_values_partial {f : FileCtx} (h : WellFormedCtx f) {d : DirEntry} (hd : StreamOk f d)
    {e : Endian} {p : PropValue} (hp : ReadProperty f d e p)
    (hu : p.type = 0x1f → ∀ pos k, (streamContent f d).word e pos = some 0x1f →
      (streamContent f d).word e (pos + 4) = some k → k < 2 ^ 31) :
    ∃ pos, ValueAt (streamContent f d) e pos p.type (seenProperty p).data := by
  obtain ⟨sec, pos, b, -, -, -, hv, -, hne⟩ := readProperty_read h hd hp
  refine ⟨(sec + u32At e b 4) % 2 ^ 32, ?_⟩
  rw [seen_data]
  apply hv
  by_cases ht : p.type = 0x1f
  · intro hw k hk
    exact hu ht _ k hw hk
  · exact hne ht

/-- C39: the data of a property of a type of fixed size has that size, and is what follows the
  type in the stream. -/
theorem C39_fixed_size {f : FileCtx} (h : WellFormedCtx f) {d : DirEntry} (hd : StreamOk f d)
    {e : Endian} {p : PropValue} (hp : ReadProperty f d e p) {n : Nat}
    (hn : (p.type, n) ∈ fixedTypes) :
    ∃ pos b, (streamContent f d).word e pos = some p.type ∧
      streamContent f d (pos + 4) n = some b ∧ p.data = .ok b ∧ b.length = n := by
  obtain ⟨pos, hv⟩ := C39_values_partial h hd hp
    (fun ht => absurd ht (fixedTypes_strings hn).2)
  have hdet : ∀ {t a b : Nat}, (t, a) ∈ fixedTypes → (t, b) ∈ fixedTypes → a = b := by
    intro t a b ha hb
    have h1 := classify_fixed.2 ha
    rw [classify_fixed.2 hb] at h1
    cases h1
    rfl
  have hdata : ∀ b, (seenProperty p).data = some b → p.data = .ok b := by
    intro b hb
    unfold seenProperty at hb
    simp only [] at hb
    split at hb
    · next x hx => cases hb; exact hx
    · cases hb
  have hcl := classify_fixed.2 hn
  generalize hdat : (seenProperty p).data = dat at hv
  generalize hty : p.type = t at hv hn hcl
  cases hv with
  | @fixed _ m b hw hm hb =>
    cases hdet hn hm
    exact ⟨pos, b, hw, hb, hdata b hdat, streamContent_length hb⟩
  | absent hw ht => rw [classify_variable.2 ht] at hcl; cases hcl
  | ascii hw => cases hcl
  | unicode hw => cases hcl
  | sized hw ht => rw [classify_variable.2 (.inr (.inr ht))] at hcl; cases hcl
  | multi hw ht => rw [classify_multi.2 ht] at hcl; cases hcl
  | other hw h1 h2 h3 h4 h5 => rw [classify_undefined.2 ⟨h1, h2, h3, h4, h5⟩] at hcl; cases hcl

/-- What the cut of a string keeps: all up to and including the first terminator, everything if
  there is none. -/
theorem C39_cut_string (a r : Bytes) (ha : ∀ x ∈ a, x ≠ 0) :
    upToNul (a ++ 0 :: r) = a ++ [0] ∧ upToNul a = a := by
  induction a with
  | nil => exact ⟨rfl, rfl⟩
  | cons x a ih =>
    have hx : x ≠ 0 := ha x (List.mem_cons_self ..)
    obtain ⟨h1, h2⟩ := ih (fun y hy => ha y (List.mem_cons_of_mem _ hy))
    constructor
    · show upToNul (x :: (a ++ 0 :: r)) = _
      unfold upToNul
      rw [if_neg hx, h1]
      rfl
    · unfold upToNul
      rw [if_neg hx, h2]

/-- The same for strings of 16-bit units, given as a list of units. -/
theorem C39_cut_units (a : List (UInt8 × UInt8)) (r : Bytes) (ha : ∀ x ∈ a, x ≠ (0, 0)) :
    upToNulUnit (a.flatMap (fun x => [x.1, x.2]) ++ 0 :: 0 :: r) =
      a.flatMap (fun x => [x.1, x.2]) ++ [0, 0] ∧
    upToNulUnit (a.flatMap (fun x => [x.1, x.2])) = a.flatMap (fun x => [x.1, x.2]) := by
  induction a with
  | nil => exact ⟨rfl, rfl⟩
  | cons x a ih =>
    have hx : x ≠ (0, 0) := ha x (List.mem_cons_self ..)
    have hx' : ¬ (x.1 = 0 ∧ x.2 = 0) := fun h => hx (Prod.ext h.1 h.2)
    obtain ⟨h1, h2⟩ := ih (fun y hy => ha y (List.mem_cons_of_mem _ hy))
    rw [List.flatMap_cons]
    constructor
    · show upToNulUnit (x.1 :: x.2 :: (a.flatMap _ ++ 0 :: 0 :: r)) = _
      unfold upToNulUnit
      rw [if_neg hx', h1]
      rfl
    · show upToNulUnit (x.1 :: x.2 :: a.flatMap _) = x.1 :: x.2 :: a.flatMap _
      unfold upToNulUnit
      rw [if_neg hx', h2]

/-- A set with one section and one property: the list of properties of the section is followed by
  the value. -/
def oneProperty (off : Nat) (value : Bytes) : Bytes :=
  setMark .little ++ enc16 .little 0 ++ enc32 .little 5 ++ sampleClass 1 ++ enc32 .little 1 ++
  sampleClass 2 ++ enc32 .little 48 ++ enc32 .little 100 ++ enc32 .little 1 ++
  enc32 .little 7 ++ enc32 .little off ++ value

/-- The properties of `sampleSet` are properties of a set that was read. -/
example : ∃ p, ReadProperty (setFile (oneProperty 16 (enc32 .little 0x12 ++ [1, 2])))
    (setEntry (oneProperty 16 (enc32 .little 0x12 ++ [1, 2]))) .little p ∧ p.data = .ok [1, 2] :=
  ⟨⟨7, 0x12, some ⟨.byteOrder .little, some [1, 2]⟩⟩,
    ⟨0, ⟨sampleClass 1, [⟨sampleClass 2, [⟨7, 0x12, some ⟨.byteOrder .little, some [1, 2]⟩⟩]⟩]⟩, 70,
      ⟨sampleClass 2, [⟨7, 0x12, some ⟨.byteOrder .little, some [1, 2]⟩⟩]⟩,
      (oneProperty 16 []).take 28, by decide +kernel, by decide +kernel, by decide +kernel,
      by decide +kernel, by decide +kernel⟩, rfl⟩

/-- C39 is violated by a 16-bit string that declares 0x80000001 units: the number of bytes is
  computed in 32 bits, so that a string of one unit is read. -/
theorem C39_unit_count_wrap_violated :
    ∃ (data : Bytes) (ps : PropSet) (c : Int),
      (streamContent (setFile data) (setEntry data)).word .little 64 = some 0x1f ∧
      (streamContent (setFile data) (setEntry data)).word .little 68 = some 0x80000001 ∧
      readSet (setFile data) (setEntry data) 0 = (.ok ps, c) ∧
      seenSet ps = ⟨sampleClass 1, [⟨sampleClass 2, [⟨7, 0x1f, some [65, 0]⟩]⟩]⟩ :=
  ⟨oneProperty 16 (enc32 .little 0x1f ++ enc32 .little 0x80000001 ++ [65, 0]),
    ⟨sampleClass 1, [⟨sampleClass 2, [⟨7, 0x1f, some ⟨.utf16le, some [65, 0]⟩⟩]⟩]⟩, 74,
    by decide +kernel, by decide +kernel, by decide +kernel, by decide +kernel⟩

/-! ### C40: typed getters -/

theorem copyInt_iff {f : FileCtx} (h : WellFormedCtx f) {d : DirEntry} (hd : StreamOk f d)
    {e : Endian} {p : PropValue} (hp : ReadProperty f d e p) {n : Nat}
    (hn : (p.type, n) ∈ fixedTypes) {rd : Endian → Bytes → Nat → Res Nat}
    {dec : Endian → Bytes → Nat → Nat}
    (hrd : ∀ e b, b.length = n → rd e b 0 = .ok (dec e b 0)) :
    ∃ b, p.data = .ok b ∧ p.copyInt n rd = .ok (dec e b 0) := by
  obtain ⟨sec, pos, -, -, -, -, -, henc, -⟩ := readProperty_read h hd hp
  obtain ⟨pos, b, -, -, hdata, hlen⟩ := C39_fixed_size h hd hp hn
  obtain ⟨hs1, hs2⟩ := fixedTypes_strings hn
  refine ⟨b, hdata, ?_⟩
  rcases p with ⟨id, t, v⟩
  rcases v with _ | ⟨enc, _ | b'⟩
  · cases hdata
  · cases hdata
  · cases hdata
    have henc' : enc = .byteOrder e := by
      have : enc = valueEncoding f.io e t := henc
      rw [this]
      unfold valueEncoding
      rw [if_neg hs1, if_neg hs2]
    subst henc'
    show (if b.length = n then rd e b 0 else .err) = _
    rw [if_pos hlen, hrd e b hlen]

/-- C40: the getter for booleans succeeds for booleans only, and returns the byte of the data. -/
theorem C40_boolean {f : FileCtx} (h : WellFormedCtx f) {d : DirEntry} (hd : StreamOk f d)
    {e : Endian} {p : PropValue} (hp : ReadProperty f d e p) (x : Nat) :
    p.asBoolean = .ok x ↔ p.type = 0xb ∧ ∃ b, p.data = .ok b ∧ x = byteAt b 0 := by
  unfold PropValue.asBoolean
  by_cases ht : p.type = 0xb
  · rw [if_neg (by simp [ht])]
    obtain ⟨b, hb, hc⟩ := copyInt_iff h hd hp (n := 1) (by rw [ht]; decide) (rd := fun _ => rdByte)
      (dec := fun _ => byteAt) (fun e b hb => rdByte_lt (by omega))
    rw [hc, hb]
    simp only [Res.ok.injEq, ht, true_and]
    constructor
    · rintro rfl; exact ⟨b, rfl, rfl⟩
    · rintro ⟨_, rfl, rfl⟩; rfl
  · rw [if_pos ht]
    simp [ht]

/-- C40: the getter for 16-bit integers. -/
theorem C40_16bit {f : FileCtx} (h : WellFormedCtx f) {d : DirEntry} (hd : StreamOk f d)
    {e : Endian} {p : PropValue} (hp : ReadProperty f d e p) (x : Nat) :
    p.as16 = .ok x ↔ (p.type = 2 ∨ p.type = 0x12) ∧ ∃ b, p.data = .ok b ∧ x = u16At e b 0 := by
  unfold PropValue.as16
  by_cases ht : p.type = 2 ∨ p.type = 0x12
  · rw [if_neg (by omega)]
    obtain ⟨b, hb, hc⟩ := copyInt_iff h hd hp (n := 2) (by rcases ht with ht | ht <;> rw [ht] <;> decide)
      (rd := rd16) (dec := u16At) (fun e b hb => rd16_ok e (by omega))
    rw [hc, hb]
    simp only [Res.ok.injEq, ht, true_and]
    constructor
    · rintro rfl; exact ⟨b, rfl, rfl⟩
    · rintro ⟨_, rfl, rfl⟩; rfl
  · rw [if_pos (by omega)]
    simp [ht]

/-- C40: the getter for 32-bit integers. -/
theorem C40_32bit {f : FileCtx} (h : WellFormedCtx f) {d : DirEntry} (hd : StreamOk f d)
    {e : Endian} {p : PropValue} (hp : ReadProperty f d e p) (x : Nat) :
    p.as32 = .ok x ↔ (p.type = 3 ∨ p.type = 0x13) ∧ ∃ b, p.data = .ok b ∧ x = u32At e b 0 := by
  unfold PropValue.as32
  by_cases ht : p.type = 3 ∨ p.type = 0x13
  · rw [if_neg (by omega)]
    obtain ⟨b, hb, hc⟩ := copyInt_iff h hd hp (n := 4) (by rcases ht with ht | ht <;> rw [ht] <;> decide)
      (rd := rd32) (dec := u32At) (fun e b hb => rd32_ok e (by omega))
    rw [hc, hb]
    simp only [Res.ok.injEq, ht, true_and]
    constructor
    · rintro rfl; exact ⟨b, rfl, rfl⟩
    · rintro ⟨_, rfl, rfl⟩; rfl
  · rw [if_pos (by omega)]
    simp [ht]

/-- C40: the getter for 64-bit integers. -/
theorem C40_64bit {f : FileCtx} (h : WellFormedCtx f) {d : DirEntry} (hd : StreamOk f d)
    {e : Endian} {p : PropValue} (hp : ReadProperty f d e p) (x : Nat) :
    p.as64 = .ok x ↔ (p.type = 0x14 ∨ p.type = 0x15) ∧ ∃ b, p.data = .ok b ∧ x = u64At e b 0 := by
  unfold PropValue.as64
  by_cases ht : p.type = 0x14 ∨ p.type = 0x15
  · rw [if_neg (by omega)]
    obtain ⟨b, hb, hc⟩ := copyInt_iff h hd hp (n := 8) (by rcases ht with ht | ht <;> rw [ht] <;> decide)
      (rd := rd64) (dec := u64At) (fun e b hb => rd64_ok e (by omega))
    rw [hc, hb]
    simp only [Res.ok.injEq, ht, true_and]
    constructor
    · rintro rfl; exact ⟨b, rfl, rfl⟩
    · rintro ⟨_, rfl, rfl⟩; rfl
  · rw [if_pos (by omega)]
    simp [ht]

/-- C40: the getter for timestamps. -/
theorem C40_filetime {f : FileCtx} (h : WellFormedCtx f) {d : DirEntry} (hd : StreamOk f d)
    {e : Endian} {p : PropValue} (hp : ReadProperty f d e p) (x : Nat) :
    p.asFiletime = .ok x ↔ p.type = 0x40 ∧ ∃ b, p.data = .ok b ∧ x = u64At e b 0 := by
  unfold PropValue.asFiletime
  by_cases ht : p.type = 0x40
  · rw [if_neg (by simp [ht])]
    obtain ⟨b, hb, hc⟩ := copyInt_iff h hd hp (n := 8) (by rw [ht]; decide)
      (rd := rd64) (dec := u64At) (fun e b hb => rd64_ok e (by omega))
    rw [hc, hb]
    simp only [Res.ok.injEq, ht, true_and]
    constructor
    · rintro rfl; exact ⟨b, rfl, rfl⟩
    · rintro ⟨_, rfl, rfl⟩; rfl
  · rw [if_pos ht]
    simp [ht]

/-- C40: the getters for strings convert the data of strings, and of nothing else: data of byte
  strings from the codepage of the file, data of 16-bit strings from little-endian UTF-16. -/
theorem C40_string {f : FileCtx} (h : WellFormedCtx f) {d : DirEntry} (hd : StreamOk f d)
    {e : Endian} {p : PropValue} (hp : ReadProperty f d e p) {α : Type}
    (conv : Encoding → Bytes → Res α) (x : α) :
    p.asString conv = .ok x ↔
      (p.type = 0x1e ∧ ∃ b, p.data = .ok b ∧ conv (.codepage f.io.codepage) b = .ok x) ∨
      (p.type = 0x1f ∧ ∃ b, p.data = .ok b ∧ conv .utf16le b = .ok x) := by
  obtain ⟨sec, pos, -, -, -, -, -, henc, -⟩ := readProperty_read h hd hp
  unfold PropValue.asString
  rcases p with ⟨id, t, v⟩
  have henc' : ∀ enc b, v = some ⟨enc, b⟩ → enc = valueEncoding f.io e t := by
    intro enc b hv
    simp only [hv, EncodedAs] at henc
    exact henc
  simp only [typeAscii, typeUnicode]
  by_cases h1 : t = 0x1e
  · subst h1
    rw [if_neg (by omega)]
    rcases v with _ | ⟨enc, _ | b⟩
    · simp [PropValue.data]
    · simp [PropValue.data]
    · have he := henc' enc (some b) rfl
      have he' : enc = .codepage f.io.codepage := by rw [he]; rfl
      simp [PropValue.data, he']
  · by_cases h2 : t = 0x1f
    · subst h2
      rw [if_neg (by omega)]
      rcases v with _ | ⟨enc, _ | b⟩
      · simp [PropValue.data]
      · simp [PropValue.data]
      · have he := henc' enc (some b) rfl
        have he' : enc = .utf16le := by rw [he]; rfl
        simp [PropValue.data, he']
    · rw [if_pos ⟨h1, h2⟩]
      simp [h1, h2]

/-- The getters on a property that was read. -/
example :
    (⟨7, 0x12, some ⟨.byteOrder .little, some [1, 2]⟩⟩ : PropValue).as16 = .ok 513 ∧
    (⟨7, 0x12, some ⟨.byteOrder .little, some [1, 2]⟩⟩ : PropValue).as32 = .err := by
  decide

/-! ### C41: offsets -/

/-- C41: a set that lists a property with a data offset of 8 or less is not read. -/
theorem C41_low_offsets_rejected {f : FileCtx} (h : WellFormedCtx f) {d : DirEntry}
    (hd : StreamOk f d) {cur : Nat} {ps : PropSet} {c : Int}
    (hr : readSet f d cur = (.ok ps, c)) {b : Bytes} {e : Endian}
    (hb : streamContent f d 0 28 = some b) (hm : b.take 2 = setMark e)
    {i : Nat} (hi : i < ps.sections.length) {sb : Bytes}
    (hsb : streamContent f d (28 + 20 * i) 20 = some sb) {nb : Bytes}
    (hnb : streamContent f d (u32At e sb 16) 8 = some nb) {j : Nat} (hj : j < u32At e nb 4)
    {pb : Bytes} (hpb : streamContent f d (u32At e sb 16 + 8 + 8 * j) 8 = some pb) :
    8 < u32At e pb 4 := by
  obtain ⟨b', e', hb', hm', -, hl⟩ := (readSet_ok h hd).1 hr
  rw [hb] at hb'
  cases hb'
  rw [hm] at hm'
  cases setMark_inj hm'
  obtain ⟨-, s2, -⟩ := sectionsLoop_sound h hd _ 28 28 _ _ (by omega) hl
  obtain ⟨sb', hsb', -, ⟨nb', hnb', hn⟩, hps⟩ := s2 i _ (List.getElem?_eq_getElem hi)
  rw [hsb] at hsb'
  cases hsb'
  rw [hnb] at hnb'
  cases hnb'
  obtain ⟨pb', hpb', -, h8, -⟩ := hps j _ (List.getElem?_eq_getElem (by omega))
  rw [hpb] at hpb'
  cases hpb'
  exact h8

/-- A data offset of 8 is an error, one of 9 is not an error by itself. -/
example : (readSet (setFile (oneProperty 8 [0])) (setEntry (oneProperty 8 [0])) 0).1 = .err ∧
    (readSet (setFile (oneProperty 16 (enc32 .little 0x11 ++ [5])))
      (setEntry (oneProperty 16 (enc32 .little 0x11 ++ [5]))) 0).1 ≠ .err := by
  decide +kernel

/-- C41 is violated: the sum of the offset of a section and of a data offset is computed in 32
  bits, so that a data offset of 2^32 - 48 + 44 in a section at 48 reads the value at 44, the field
  with the offset of the section. -/
theorem C41_offset_wrap_violated :
    ∃ (data : Bytes) (ps : PropSet) (c : Int),
      (streamContent (setFile data) (setEntry data)).word .little 44 = some 48 ∧
      (streamContent (setFile data) (setEntry data)).word .little 60 = some (2 ^ 32 - 4) ∧
      readSet (setFile data) (setEntry data) 0 = (.ok ps, c) ∧
      seenSet ps = ⟨sampleClass 1, [⟨sampleClass 2, [⟨7, 48, none⟩]⟩]⟩ :=
  ⟨oneProperty (2 ^ 32 - 4) [],
    ⟨sampleClass 1, [⟨sampleClass 2, [⟨7, 48, none⟩]⟩]⟩, 48,
    by decide +kernel, by decide +kernel, by decide +kernel, by decide +kernel⟩

/-- C41, what holds: the value of a property that is read lies in the stream, at the sum of the two
  offsets if that does not leave 32 bits.  The full claim is that the sum of an accepted property
  never leaves 32 bits. -/
theorem C41_value_in_stream_partial {f : FileCtx} (h : WellFormedCtx f) {d : DirEntry}
    (hd : StreamOk f d) {cur : Nat} {ps : PropSet} {c : Int}
    (hr : readSet f d cur = (.ok ps, c)) {b : Bytes} {e : Endian}
    (hb : streamContent f d 0 28 = some b) (hm : b.take 2 = setMark e)
    {i : Nat} {s : PropSection} (hi : ps.sections[i]? = some s) {sb : Bytes}
    (hsb : streamContent f d (28 + 20 * i) 20 = some sb)
    {j : Nat} {p : PropValue} (hj : s.properties[j]? = some p)
    {pb : Bytes} (hpb : streamContent f d (u32At e sb 16 + 8 + 8 * j) 8 = some pb)
    (hsum : u32At e sb 16 + u32At e pb 4 < 2 ^ 32) (ht : p.type ≠ 0x1f) :
    u32At e sb 16 + u32At e pb 4 + 4 ≤ d.size ∧ u32At e pb 0 = p.identifier ∧
    ValueAt (streamContent f d) e (u32At e sb 16 + u32At e pb 4) p.type (seenProperty p).data := by
  obtain ⟨b', e', hb', hm', -, hl⟩ := (readSet_ok h hd).1 hr
  rw [hb] at hb'
  cases hb'
  rw [hm] at hm'
  cases setMark_inj hm'
  obtain ⟨-, s2, -⟩ := sectionsLoop_sound h hd _ 28 28 _ _ (by omega) hl
  obtain ⟨sb', hsb', -, -, hps⟩ := s2 i _ hi
  rw [hsb] at hsb'
  cases hsb'
  obtain ⟨pb', hpb', hid, -, hv, -, hne⟩ := hps j _ hj
  rw [hpb] at hpb'
  cases hpb'
  rw [Nat.mod_eq_of_lt hsum] at hv hne
  have hv := hv (hne ht)
  refine ⟨?_, hid, by rw [seen_data]; exact hv⟩
  generalize p.type = t at hv
  generalize dataOf p.value = dat at hv
  cases hv with
  | fixed hw => exact word_within h hd hw
  | absent hw => exact word_within h hd hw
  | ascii hw => exact word_within h hd hw
  | unicode hw => exact word_within h hd hw
  | sized hw => exact word_within h hd hw
  | multi hw => exact word_within h hd hw
  | other hw => exact word_within h hd hw

/-! ### C53: every stream -/

/-- C53: whatever a stream contains, reading a property set from it is defined and returns; and it
  does not depend on the offset the stream has before. -/
theorem C53_defined {f : FileCtx} (h : WellFormedCtx f) {d : DirEntry} (hd : StreamOk f d)
    (cur : Nat) :
    (readSet f d cur).1.Defined ∧ ∀ cur' : Nat, readSet f d cur' = readSet f d cur := by
  refine ⟨readSet_defined' h hd cur, ?_⟩
  intro cur'
  have hseek : ∀ c : Nat, seekTo d 0 c = (.ok (), 0) := by
    intro c
    exact (seekTo_ok hd.isStream 0 c (by omega)).2 rfl
  unfold readSet
  show Reader.bind _ _ _ = Reader.bind _ _ _
  unfold Reader.bind
  rw [hseek, hseek]

/-- C53: a stream without a byte order mark is not read as a property set. -/
theorem C53_mark_required {f : FileCtx} (h : WellFormedCtx f) {d : DirEntry} (hd : StreamOk f d)
    (cur : Nat)
    (hm : ∀ b, streamContent f d 0 28 = some b → b.take 2 ≠ [0xfe, 0xff] ∧ b.take 2 ≠ [0xff, 0xfe]) :
    (readSet f d cur).1 = .err := by
  have hdef := readSet_defined' h hd cur
  cases hr : readSet f d cur with
  | mk r c =>
    rw [hr] at hdef
    cases r with
    | err => rfl
    | ub => exact hdef.elim
    | hang => exact hdef.elim
    | ok ps =>
      obtain ⟨b, e, hb, he, -⟩ := (readSet_ok h hd).1 hr
      cases e with
      | little => exact absurd he (hm b hb).1
      | big => exact absurd he (hm b hb).2

/-- Garbage: defined, and an error. -/
example : (readSet (setFile (List.replicate 40 1)) (setEntry (List.replicate 40 1)) 0).1 = .err := by
  decide +kernel

end Olecf.Props
