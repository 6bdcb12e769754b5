import Verif.Lemmas.Stream

/-
  C23 to C33 and C50: reading and seeking streams.
-/

namespace Olecf.Props
open Olecf.Spec

/-! ### A sample: four sectors of 16 bytes (the first one takes the place of the header), short
  sectors of 4 bytes, streams below 10 bytes are small -/

def sampleContent : Bytes := (List.range 64).map fun i => UInt8.ofNat (100 + i)

/-- Sector 0 holds the short stream container, sectors 2 and 1 (in that order) a long stream;
  the short stream uses the short sectors 3 and 1. -/
def sampleCtx : FileCtx where
  io := { majorVersion := 3, minorVersion := 0, sectorSize := 16, shortSectorSize := 4,
          minStreamSize := 10, byteOrder := .little, shortStreamStart := 0, codepage := 1252 }
  dev := Dev.ofBytes sampleContent
  sat := ⟨[0xfffffffe, 0xfffffffe, 1, 0xffffffff]⟩
  ssat := ⟨[0xffffffff, 0xfffffffe, 0xffffffff, 1]⟩

def streamEntry (start size : Nat) : DirEntry :=
  { id := 1, name := [], type := 2, prev := UNUSED, next := UNUSED, sub := UNUSED,
    created := 0, modified := 0, start := start, size := size }

theorem sampleCtx_wf : WellFormedCtx sampleCtx := by
  refine ⟨by decide, by decide, by decide, ⟨by decide, by decide⟩, ⟨by decide, by decide⟩⟩

theorem sample_long : StreamOk sampleCtx (streamEntry 2 20) :=
  ⟨⟨by decide, by decide⟩, rfl, by decide⟩

theorem sample_small : StreamOk sampleCtx (streamEntry 3 7) :=
  ⟨⟨by decide, by decide⟩, rfl, by decide⟩

theorem sample_nested (d : DirEntry) : Nested sampleCtx d := fun _ => by decide

/-! ### C25, C26: counts and offsets, for every device -/

/-- C25: for every device, stream, offset and size: a read is defined and returns; if it succeeds
  it returns as many bytes as were asked for or are left; whether it succeeds or not, the device
  reads together put at most that many bytes into the buffer. -/
theorem C25_counts_clamped {f : FileCtx} (h : WellFormedCtx f) {d : DirEntry} (hd : StreamOk f d)
    (cur size : Nat) (hsz : size ≤ 2 ^ 63 - 1) :
    (streamRead f d cur size).1.res.Defined ∧
    (∀ data, (streamRead f d cur size).1.res = .ok data →
      data.length = min size (d.size - cur)) ∧
    ((streamRead f d cur size).1.reads.map (·.2)).sum ≤ min size (d.size - cur) := by
  have hsz' : size ≤ SSIZE_MAX := by unfold SSIZE_MAX; omega
  rw [streamRead_eq hd.isStream hsz']
  by_cases hc : d.size ≤ cur
  · rw [if_pos hc]
    refine ⟨trivial, ?_, by simp⟩
    intro data hr
    cases hr
    simp; omega
  · rw [if_neg hc]
    have hcl := clamp_le d cur size
    have hfit := hd.fits.size
    have hsec : d.size ≤ unitOf f d * INT_MAX := hd.sectors
    obtain ⟨s1, s2, -, -⟩ := readStream_safe h hd.fits (off := cur) (size := clamp d cur size)
      (by omega) (by omega) (by omega)
    simp only []
    rcases s1 with s1 | ⟨data', s1, s3⟩
    · rw [s1]
      exact ⟨trivial, by simp, s2⟩
    · rw [s1]
      simp only []
      rw [if_neg (by omega)]
      refine ⟨trivial, ?_, s2⟩
      intro data hr
      cases hr
      exact s3

/-- C25: a size that does not fit in `ssize_t` is refused. -/
theorem C25_size_limit (f : FileCtx) (d : DirEntry) (cur : Int) (size : Nat)
    (hsz : 2 ^ 63 - 1 < size) : streamRead f d cur size = (.of .err, cur) := by
  unfold streamRead
  split
  · rfl
  · split
    · rfl
    · rw [if_pos (by unfold SSIZE_MAX; omega)]

example : (streamRead sampleCtx (streamEntry 2 20) 18 100).1.res = .ok [134, 135] := by
  decide +kernel
example : ((streamRead sampleCtx (streamEntry 2 20) 18 100).1.reads.map (·.2)).sum = 2 := by
  decide +kernel
example : (streamRead sampleCtx (streamEntry 2 20) 20 100).1.res = .ok [] := by
  decide +kernel

/-- C26: a read moves the offset by the bytes it returns, and not at all if it fails. -/
theorem C26_offset_advances {f : FileCtx} (h : WellFormedCtx f) {d : DirEntry} (hd : StreamOk f d)
    (cur size : Nat) :
    (∀ data, (streamRead f d cur size).1.res = .ok data →
      (streamRead f d cur size).2 = cur + data.length) ∧
    ((streamRead f d cur size).1.res = .err → (streamRead f d cur size).2 = cur) := by
  by_cases hsz : size ≤ SSIZE_MAX
  · rw [streamRead_eq hd.isStream hsz]
    by_cases hc : d.size ≤ cur
    · rw [if_pos hc]
      refine ⟨?_, fun _ => rfl⟩
      intro data hr
      cases hr
      simp
    · rw [if_neg hc]
      have hcl := clamp_le d cur size
      have hfit := hd.fits.size
      have hsec : d.size ≤ unitOf f d * INT_MAX := hd.sectors
      obtain ⟨s1, -, -, -⟩ := readStream_safe h hd.fits (off := cur) (size := clamp d cur size)
        (by omega) (by omega) (by omega)
      simp only []
      rcases s1 with s1 | ⟨data', s1, s3⟩
      · rw [s1]
        exact ⟨by simp, fun _ => rfl⟩
      · rw [s1]
        simp only []
        rw [if_neg (by omega)]
        refine ⟨?_, by simp⟩
        intro data hr
        cases hr
        simp only [s3]
        omega
  · rw [C25_size_limit f d cur size (by unfold SSIZE_MAX at hsz; omega)]
    exact ⟨by simp [Out.of], fun _ => rfl⟩

/-- C26: a read at an offset seeks first; so if the read then fails, the offset is the requested
  one; if the requested offset is negative nothing changes. -/
theorem C26_read_at_offset {f : FileCtx} (h : WellFormedCtx f) {d : DirEntry} (hd : StreamOk f d)
    (cur size offset : Nat) (hoff : offset < 2 ^ 63) :
    (∀ data, (streamReadAt f d cur size offset).1.res = .ok data →
      (streamReadAt f d cur size offset).2 = offset + data.length) ∧
    ((streamReadAt f d cur size offset).1.res = .err →
      (streamReadAt f d cur size offset).2 = offset) ∧
    ∀ neg : Int, neg < 0 → -(2 ^ 63) ≤ neg →
      streamReadAt f d cur size neg = (.of .err, (cur : Int)) := by
  have hseek : streamSeek d cur offset .set = (.ok (offset : Int), (offset : Int)) := by
    unfold streamSeek
    rw [if_neg (by simp [hd.isStream]), if_neg (by omega), if_neg (by simp)]
    simp only []
    rw [if_neg (by simp only [inOff64]; omega), if_neg (by omega)]
  have hra : streamReadAt f d cur size offset = streamRead f d offset size := by
    unfold streamReadAt; rw [hseek]
  rw [hra]
  obtain ⟨h1, h2⟩ := C26_offset_advances h hd offset size
  refine ⟨h1, h2, ?_⟩
  intro neg hneg hmin
  have hs : streamSeek d cur neg .set = (.err, (cur : Int)) := by
    unfold streamSeek
    rw [if_neg (by simp [hd.isStream]), if_neg (by omega), if_neg (by simp)]
    simp only []
    rw [if_neg (by simp only [inOff64]; omega), if_pos hneg]
  unfold streamReadAt
  rw [hs]

example : (streamRead sampleCtx (streamEntry 2 20) 14 3).2 = 17 := by decide +kernel
/-- A failing read: the second sector of the chain lies behind the end of this file. -/
example : (streamRead { sampleCtx with dev := Dev.ofBytes [] } (streamEntry 2 20) 14 3).1.res = .err ∧
    (streamRead { sampleCtx with dev := Dev.ofBytes [] } (streamEntry 2 20) 14 3).2 = 14 := by
  decide +kernel

/-! ### C23, C24: the bytes -/

/-- C23: a successful read returns the bytes of the stream from the current offset on.  Partial:
  the full statement has no hypothesis `Nested`; without it, it is false, see
  `C23_large_short_sectors_violated`. -/
theorem C23_read_returns_stream_bytes_partial {f : FileCtx} (h : WellFormedCtx f) {d : DirEntry}
    (hd : StreamOk f d) (hn : Nested f d) {content : Bytes} (hdev : f.dev = Dev.ofBytes content)
    {cur size : Nat} {data : Bytes} (hr : (streamRead f d cur size).1.res = .ok data) :
    data.length = min size (d.size - cur) ∧
    ∀ j, j < data.length → data[j]? = streamByte content f d (cur + j) := by
  by_cases hsz : size ≤ 2 ^ 63 - 1
  · refine ⟨(C25_counts_clamped h hd cur size hsz).2.1 data hr, ?_⟩
    intro j hj
    by_cases hc : cur < d.size
    · have := ((streamRead_iff h hd hdev hc (by unfold SSIZE_MAX; omega) data).1 hr).2.2.2
      have hb : data[j]? = some data[j] := List.getElem?_eq_getElem hj
      rw [hb, ((rawByte_iff h hn).1 (this j _ hb)).1]
    · have := (C25_counts_clamped h hd cur size hsz).2.1 data hr
      omega
  · rw [C25_size_limit f d cur size (by omega)] at hr
    cases hr

example : (streamRead sampleCtx (streamEntry 2 20) 14 4).1.res = .ok [162, 163, 132, 133] := by
  decide +kernel
example : (List.range 4).map (fun j => streamByte sampleContent sampleCtx (streamEntry 2 20) (14 + j))
    = [162, 163, 132, 133].map some := by decide +kernel
/-- A small stream: bytes 2 to 6, in the short sectors 3 and 1. -/
example : (streamRead sampleCtx (streamEntry 3 7) 2 100).1.res = .ok [130, 131, 120, 121, 122] := by
  decide +kernel
example : (List.range 5).map (fun j => streamByte sampleContent sampleCtx (streamEntry 3 7) (2 + j))
    = [130, 131, 120, 121, 122].map some := by decide +kernel

/-- C23: the sector sizes are powers of two, so `Nested` holds whenever the short sectors are not
  larger than the sectors. -/
theorem C23_nested_of_le {f : FileCtx} {a b : Nat} (ha : f.io.shortSectorSize = 2 ^ a)
    (hb : f.io.sectorSize = 2 ^ b) (hle : f.io.shortSectorSize ≤ f.io.sectorSize) (d : DirEntry) :
    Nested f d := by
  intro _
  rw [ha, hb] at *
  exact Nat.pow_dvd_pow 2 ((Nat.pow_le_pow_iff_right (by decide)).1 hle)

/-- A file whose short sectors (8 bytes) are larger than its sectors (4 bytes): the container is
  made of the sectors 0 and 2. -/
def straddleCtx : FileCtx where
  io := { majorVersion := 3, minorVersion := 0, sectorSize := 4, shortSectorSize := 8,
          minStreamSize := 10, byteOrder := .little, shortStreamStart := 0, codepage := 1252 }
  dev := Dev.ofBytes ((List.range 16).map fun i => UInt8.ofNat (100 + i))
  sat := ⟨[2, 0xfffffffe, 0xfffffffe]⟩
  ssat := ⟨[0xfffffffe]⟩

/-- C23 fails for short sectors that are larger than the sectors: the read returns the bytes of
  the sector that follows in the file and not of the one that follows in the container. -/
theorem C23_large_short_sectors_violated :
    WellFormedCtx straddleCtx ∧ StreamOk straddleCtx (streamEntry 0 8) ∧
    ∃ content data, straddleCtx.dev = Dev.ofBytes content ∧
      (streamRead straddleCtx (streamEntry 0 8) 0 8).1.res = .ok data ∧
      data[4]? = some 108 ∧ streamByte content straddleCtx (streamEntry 0 8) 4 = some 112 := by
  refine ⟨⟨by decide, by decide, by decide, ⟨by decide, by decide⟩, ⟨by decide, by decide⟩⟩,
    ⟨⟨by decide, by decide⟩, rfl, by decide⟩,
    (List.range 16).map fun i => UInt8.ofNat (100 + i), [104, 105, 106, 107, 108, 109, 110, 111],
    rfl, by decide +kernel, by decide, by decide +kernel⟩

/-- C24: exactly when a read inside of the stream succeeds: the sector of the offset is on the
  chain, at a position below the size of the table; all bytes asked for are in the file; and each
  sector that is used has a link (the end marker or a further sector). -/
theorem C24_read_succeeds_iff {f : FileCtx} (h : WellFormedCtx f) {d : DirEntry}
    (hd : StreamOk f d) (hn : Nested f d) {content : Bytes} (hdev : f.dev = Dev.ofBytes content)
    {cur size : Nat} (hcur : cur < d.size) (hsz : size ≤ 2 ^ 63 - 1) :
    (∃ data, (streamRead f d cur size).1.res = .ok data) ↔
      cur / unitOf f d < (tableOf f d).length ∧
      (nth (tableOf f d) d.start (cur / unitOf f d)).isSome ∧
      ∀ i, cur ≤ i → i < cur + min size (d.size - cur) →
        (streamByte content f d i).isSome ∧
        (nth (tableOf f d) d.start (i / unitOf f d + 1)).isSome := by
  have key := fun data => streamRead_iff h hd hdev hcur (size := size)
    (by unfold SSIZE_MAX; omega) data
  constructor
  · rintro ⟨data, hr⟩
    obtain ⟨k1, k2, k3, k4⟩ := (key data).1 hr
    refine ⟨k1, k2, ?_⟩
    intro i hi1 hi2
    have hlt : i - cur < data.length := by rw [k3]; unfold clamp; omega
    obtain ⟨m1, m2⟩ := (rawByte_iff h hn).1 (k4 (i - cur) _ (List.getElem?_eq_getElem hlt))
    rw [show cur + (i - cur) = i by omega] at m1 m2
    exact ⟨by rw [m1]; rfl, m2⟩
  · rintro ⟨k1, k2, k3⟩
    refine ⟨(List.range (clamp d cur size)).map
      (fun j => (streamByte content f d (cur + j)).getD 0), ?_⟩
    rw [key]
    refine ⟨k1, k2, by simp, ?_⟩
    intro j b hb
    rw [List.getElem?_map, Option.map_eq_some_iff] at hb
    obtain ⟨j', hj', rfl⟩ := hb
    obtain ⟨hj1, hj2⟩ := List.getElem?_eq_some_iff.1 hj'
    simp only [List.getElem_range] at hj2
    subst hj2
    simp only [List.length_range] at hj1
    obtain ⟨m1, m2⟩ := k3 (cur + j) (by omega) (by unfold clamp at hj1; omega)
    refine (rawByte_iff h hn).2 ⟨?_, m2⟩
    cases hx : streamByte content f d (cur + j) with
    | none => rw [hx] at m1; cases m1
    | some x => rfl

theorem chain_nth {table : List Nat} {a e : Nat} {ids : List Nat} (hc : Chain table a ids e) :
    ∀ k, k ≤ ids.length → (nth table a k).isSome := by
  induction hc with
  | nil a =>
    intro k hk
    have : k = 0 := by simp at hk; omega
    subst this; rfl
  | cons hx _ ih =>
    intro k hk
    cases k with
    | zero => rfl
    | succ k => rw [nth_succ' hx]; exact ih k (by simp at hk; omega)

theorem chain_mem_lt {table : List Nat} {a e : Nat} {ids : List Nat} (hc : Chain table a ids e) :
    ∀ i ∈ ids, i < table.length := by
  induction hc with
  | nil a => simp
  | cons hx _ ih =>
    intro i hi
    rcases List.mem_cons.1 hi with rfl | hi
    · exact (List.getElem?_eq_some_iff.1 hx).1
    · exact ih i hi

/-- C24: a stream whose chain consists of distinct sectors, is long enough for its size, and whose
  bytes are all in the file can be read: every read from every offset succeeds (and returns the
  bytes, C23). -/
theorem C24_covered_stream_readable {f : FileCtx} (h : WellFormedCtx f) {d : DirEntry}
    (hd : StreamOk f d) (hn : Nested f d) {content : Bytes} (hdev : f.dev = Dev.ofBytes content)
    {ids : List Nat} {last : Nat} (hc : Chain (tableOf f d) d.start ids last) (hnd : ids.Nodup)
    (hlen : d.size ≤ ids.length * unitOf f d)
    (hbytes : ∀ i, i < d.size → (streamByte content f d i).isSome)
    (cur size : Nat) (hsz : size ≤ 2 ^ 63 - 1) :
    ∃ data, (streamRead f d cur size).1.res = .ok data := by
  by_cases hcur : cur < d.size
  · have hu : 0 < unitOf f d := by rw [← unit_eq]; exact (unit_bounds h d).1
    have hdiv : ∀ i, i < d.size → i / unitOf f d < ids.length := by
      intro i hi
      rw [Nat.div_lt_iff_lt_mul hu]
      omega
    have hle : ids.length ≤ (tableOf f d).length := by
      have h1 : ids.length ≤ (List.range (tableOf f d).length).length :=
        List.Nodup.length_le_of_subset hnd (fun i hi => List.mem_range.2 (chain_mem_lt hc i hi))
      simpa using h1
    rw [C24_read_succeeds_iff h hd hn hdev hcur hsz]
    have hd1 := hdiv cur hcur
    refine ⟨by omega, chain_nth hc _ (by omega), ?_⟩
    intro i hi1 hi2
    have hd2 := hdiv i (by omega)
    exact ⟨hbytes i (by omega), chain_nth hc _ (by omega)⟩
  · refine ⟨[], ?_⟩
    rw [streamRead_eq hd.isStream (by unfold SSIZE_MAX; omega), if_pos (by omega)]
    rfl

example : Chain (tableOf sampleCtx (streamEntry 2 20)) 2 [2, 1] 0xfffffffe :=
  .cons rfl (.cons rfl (.nil _))
example : ∀ i, i < 20 → (streamByte sampleContent sampleCtx (streamEntry 2 20) i).isSome := by
  decide +kernel
example : Chain (tableOf sampleCtx (streamEntry 3 7)) 3 [3, 1] 0xfffffffe :=
  .cons rfl (.cons rfl (.nil _))

/-! ### C27: reads in pieces -/

/-- C27: if a sequence of reads succeeds then one read of their total size, from the same offset,
  succeeds and returns their concatenation. -/
theorem C27_pieces_equal_whole {f : FileCtx} (h : WellFormedCtx f) {d : DirEntry}
    (hd : StreamOk f d) {content : Bytes} (hdev : f.dev = Dev.ofBytes content) :
    ∀ (sizes : List Nat) (cur : Nat) (pieces : List Bytes), sizes ≠ [] →
      sizes.sum ≤ 2 ^ 63 - 1 → readAll f d cur sizes = some pieces →
      (streamRead f d cur sizes.sum).1.res = .ok pieces.flatten := by
  intro sizes
  induction sizes with
  | nil => intro _ _ hne; exact absurd rfl hne
  | cons size rest ih =>
    intro cur pieces _ hsum hr
    rw [List.sum_cons] at hsum ⊢
    rw [readAll] at hr
    cases hres : (streamRead f d cur size).1.res with
    | ok data =>
      rw [hres] at hr
      simp only [] at hr
      rw [(C26_offset_advances h hd cur size).1 data hres, Option.map_eq_some_iff] at hr
      obtain ⟨more, hmore, rfl⟩ := hr
      have hdl := (C25_counts_clamped h hd cur size (by omega)).2.1 data hres
      by_cases hrest : rest = []
      · subst hrest
        simp only [readAll, Option.some.injEq] at hmore
        subst hmore
        simpa using hres
      · have hmore' : readAll f d ((cur + data.length : Nat) : Int) rest = some more := by
          rw [← hmore]; congr 1
        have hih := ih (cur + data.length) more hrest (by omega) hmore'
        rw [List.flatten_cons]
        by_cases hc : cur < d.size
        · obtain ⟨k1, k2, k3, k4⟩ := (streamRead_iff h hd hdev hc
            (by unfold SSIZE_MAX; omega) data).1 hres
          rw [streamRead_iff h hd hdev hc (by unfold SSIZE_MAX; omega)]
          refine ⟨k1, k2, ?_, ?_⟩
          · have hl := (C25_counts_clamped h hd (cur + data.length) rest.sum (by omega)).2.1 _ hih
            rw [List.length_append, hl]
            unfold clamp at k3 ⊢
            omega
          · intro j b hb
            by_cases hj : j < data.length
            · rw [List.getElem?_append_left hj] at hb
              exact k4 j b hb
            · rw [List.getElem?_append_right (by omega)] at hb
              by_cases hc2 : cur + data.length < d.size
              · have := ((streamRead_iff h hd hdev hc2
                  (by unfold SSIZE_MAX; omega) _).1 hih).2.2.2 _ b hb
                rwa [show cur + data.length + (j - data.length) = cur + j by omega] at this
              · have hl := (C25_counts_clamped h hd (cur + data.length) rest.sum
                  (by omega)).2.1 _ hih
                have := (List.getElem?_eq_some_iff.1 hb).1
                omega
        · have hl := (C25_counts_clamped h hd (cur + data.length) rest.sum (by omega)).2.1 _ hih
          have e1 : data = [] := List.length_eq_zero_iff.1 (by omega)
          have e2 : more.flatten = [] := List.length_eq_zero_iff.1 (by omega)
          rw [streamRead_eq hd.isStream (by unfold SSIZE_MAX; omega), if_pos (by omega), e1, e2]
          rfl
    | err => rw [hres] at hr; cases hr
    | ub => rw [hres] at hr; cases hr
    | hang => rw [hres] at hr; cases hr

example : readAll sampleCtx (streamEntry 3 7) 0 [3, 0, 3, 9] =
    some [[128, 129, 130], [], [131, 120, 121], [122]] := by decide +kernel

/-! ### C29, C30, C31: seeking, and items that are not streams -/

/-- The position a seek asks for. -/
def seekTarget (d : DirEntry) (cur offset : Int) : Whence → Option Int
  | .set => some offset
  | .cur => some (cur + offset)
  | .fromEnd => some (d.size + offset)
  | .other => none

/-- C29: a seek to a position of the non-negative 64-bit range sets the offset to it and returns
  it; a seek to a negative position or from an unknown origin fails and changes nothing. -/
theorem C29_seek {d : DirEntry} (ht : d.type = 2) {cur : Int} (hcur : 0 ≤ cur) (offset : Int)
    (w : Whence) :
    (∀ p, seekTarget d cur offset w = some p → 0 ≤ p → p < 2 ^ 63 →
      streamSeek d cur offset w = (.ok p, p) ∧ streamGetOffset d p = .ok p) ∧
    (∀ p, seekTarget d cur offset w = some p → p < 0 → -(2 ^ 63) ≤ p →
      streamSeek d cur offset w = (.err, cur)) ∧
    (seekTarget d cur offset w = none → streamSeek d cur offset w = (.err, cur)) := by
  unfold streamSeek seekTarget streamGetOffset
  have ht' : ¬ d.type ≠ typeStream := by simp [ht]
  refine ⟨?_, ?_, ?_⟩
  · intro p hp h0 h63
    rw [if_neg ht', if_neg (by omega), if_neg ht']
    cases w <;> simp only [Option.some.injEq, reduceCtorEq] at hp <;> subst hp <;>
      simp only [reduceCtorEq, if_false, inOff64, Int.add_comm] <;>
      rw [if_neg (by omega), if_neg (by omega)] <;> simp
  · intro p hp h0 h63
    rw [if_neg ht', if_neg (by omega)]
    cases w <;> simp only [Option.some.injEq, reduceCtorEq] at hp <;> subst hp <;>
      simp only [reduceCtorEq, if_false, inOff64, Int.add_comm] <;>
      rw [if_neg (by omega), if_pos (by omega)]
  · intro hp
    rw [if_neg ht', if_neg (by omega)]
    cases w <;> simp at hp ⊢

example : streamSeek (streamEntry 2 20) 5 (-3) .cur = (.ok 2, 2) := by decide
example : streamSeek (streamEntry 2 20) 5 4 .fromEnd = (.ok 24, 24) := by decide
example : streamSeek (streamEntry 2 20) 5 (-6) .cur = (.err, 5) := by decide

theorem seek_nonneg (d : DirEntry) {cur : Int} (hcur : 0 ≤ cur) (offset : Int) (w : Whence) :
    0 ≤ (streamSeek d cur offset w).2 := by
  have key : ∀ t : Int, 0 ≤ (if ¬ inOff64 t then ((.ub : Res Int), cur)
      else if t < 0 then (.err, cur) else (.ok t, t)).2 := by
    intro t
    by_cases h1 : inOff64 t
    · rw [if_neg (not_not_intro h1)]
      split
      · exact hcur
      · simp only []; omega
    · rw [if_pos h1]
      exact hcur
  unfold streamSeek
  split
  · exact hcur
  · split
    · exact hcur
    · split
      · exact hcur
      · exact key _

theorem read_nonneg (f : FileCtx) (d : DirEntry) {cur : Int} (hcur : 0 ≤ cur) (size : Nat) :
    0 ≤ (streamRead f d cur size).2 := by
  unfold streamRead
  split
  · exact hcur
  · split
    · exact hcur
    · split
      · exact hcur
      · split
        · exact hcur
        · simp only []
          generalize (if size > d.size ∨ cur.toNat > d.size - size then d.size - cur.toNat
            else size) = n
          split
          · split
            · exact Int.natCast_nonneg _
            · exact Int.natCast_nonneg _
          · exact hcur
          · exact hcur
          · exact hcur

theorem readAt_nonneg (f : FileCtx) (d : DirEntry) {cur : Int} (hcur : 0 ≤ cur) (size : Nat)
    (offset : Int) : 0 ≤ (streamReadAt f d cur size offset).2 := by
  have := seek_nonneg d hcur offset .set
  unfold streamReadAt
  generalize streamSeek d cur offset .set = r at this ⊢
  obtain ⟨a, b⟩ := r
  cases a with
  | ok _ => exact read_nonneg f d this size
  | err => exact this
  | ub => exact this
  | hang => exact this

/-- C29: in every history, on any number of items, no offset is ever negative. -/
theorem C29_offset_never_negative (f : FileCtx) (items : Nat → DirEntry) (ops : List StreamOp)
    (i : Nat) : 0 ≤ offsetsAfter f items ops i := by
  have key : ∀ (ops : List StreamOp) (st : Nat → Int), (∀ k, 0 ≤ st k) →
      ∀ k, 0 ≤ ops.foldl (fun st op => op.run f items st) st k := by
    intro ops
    induction ops with
    | nil => intro st hst k; exact hst k
    | cons op ops ih =>
      intro st hst
      refine ih _ ?_
      intro k
      cases op with
      | read j size =>
        simp only [StreamOp.run]
        split
        · exact read_nonneg f _ (hst j) size
        · exact hst k
      | seek j o w =>
        simp only [StreamOp.run]
        split
        · exact seek_nonneg _ (hst j) o w
        · exact hst k
      | readAt j size o =>
        simp only [StreamOp.run]
        split
        · exact readAt_nonneg f _ (hst j) size o
        · exact hst k
  exact key ops _ (fun _ => Int.le_refl _) i

example : offsetsAfter sampleCtx (fun _ => streamEntry 2 20)
    [.read 0 5, .seek 1 3 .fromEnd, .readAt 0 9 15] 0 = 20 := by decide +kernel

/-- C30 fails: an offset of 2^63 - 1 is reachable, and one step from there is a signed
  overflow. -/
theorem C30_seek_overflow_violated (f : FileCtx) :
    ∃ (items : Nat → DirEntry) (ops : List StreamOp) (o : Int), inOff64 o ∧
      (items 0).type = 2 ∧ EntryFits (items 0) ∧
      (streamSeek (items 0) (offsetsAfter f items ops 0) o .cur).1 = .ub := by
  refine ⟨fun _ => streamEntry 0 1, [.seek 0 (2 ^ 63 - 1) .set], 1, by decide, rfl,
    ⟨by decide, by decide⟩, ?_⟩
  have : offsetsAfter f (fun _ => streamEntry 0 1) [.seek 0 (2 ^ 63 - 1) .set] 0 = 2 ^ 63 - 1 := by
    simp only [offsetsAfter, List.foldl, StreamOp.run, if_true]
    decide
  rw [this]
  decide

/-- C30 (partial): exactly when a seek overflows.  Missing: that it never does. -/
theorem C30_seek_overflow_partial {d : DirEntry} (hd : EntryFits d) (ht : d.type = 2) {cur : Int}
    (hcur : 0 ≤ cur ∧ cur < 2 ^ 63) {offset : Int} (hoff : inOff64 offset) (w : Whence) :
    (streamSeek d cur offset w).1 = .ub ↔
      (w = .cur ∧ cur + offset ≥ 2 ^ 63) ∨ (w = .fromEnd ∧ d.size + offset ≥ 2 ^ 63) := by
  have hs := hd.size
  unfold streamSeek
  rw [if_neg (by simp [ht]), if_neg (by omega)]
  have hoff' : -(2 ^ 63) ≤ offset ∧ offset < 2 ^ 63 := hoff
  cases w with
  | set =>
    simp only [reduceCtorEq, if_false, false_and, or_self, iff_false]
    rw [if_neg (by simp only [inOff64]; omega)]
    split <;> simp
  | cur =>
    simp only [reduceCtorEq, if_false, true_and, false_and, or_false]
    by_cases hc : inOff64 (offset + cur)
    · have hc' : -(2 ^ 63) ≤ offset + cur ∧ offset + cur < 2 ^ 63 := hc
      rw [if_neg (not_not_intro hc)]
      constructor
      · split <;> simp
      · intro hx; omega
    · have hc' : ¬ (-(2 ^ 63) ≤ offset + cur ∧ offset + cur < 2 ^ 63) := hc
      rw [if_pos hc]
      simp only [true_iff]
      omega
  | fromEnd =>
    simp only [reduceCtorEq, if_false, true_and, false_and, false_or]
    by_cases hc : inOff64 (offset + d.size)
    · have hc' : -(2 ^ 63) ≤ offset + d.size ∧ offset + d.size < 2 ^ 63 := hc
      rw [if_neg (not_not_intro hc)]
      constructor
      · split <;> simp
      · intro hx; omega
    · have hc' : ¬ (-(2 ^ 63) ≤ offset + (d.size : Int) ∧ offset + (d.size : Int) < 2 ^ 63) := hc
      rw [if_pos hc]
      simp only [true_iff]
      omega
  | other =>
    simp

/-- C31: on an item that is not a stream nothing can be read, sought or asked, and nothing
  changes. -/
theorem C31_only_streams (f : FileCtx) {d : DirEntry} (ht : d.type ≠ 2) (cur : Int) (size : Nat)
    (offset : Int) (w : Whence) :
    streamRead f d cur size = (.of .err, cur) ∧
    streamSeek d cur offset w = (.err, cur) ∧
    streamGetOffset d cur = .err ∧
    streamReadAt f d cur size offset = (.of .err, cur) := by
  have h1 : ∀ o w, streamSeek d cur o w = (.err, cur) := by
    intro o w; unfold streamSeek; rw [if_pos ht]
  refine ⟨by unfold streamRead; rw [if_pos ht], h1 _ _,
    by unfold streamGetOffset; rw [if_pos ht], ?_⟩
  unfold streamReadAt
  rw [h1]

example : streamRead sampleCtx { streamEntry 2 20 with type := 1 } 0 4 = (.of .err, 0) :=
  (C31_only_streams sampleCtx (by decide) 0 4 0 .set).1

/-! ### C28: independence of the history -/

/-- C28: after every history of operations on any items, a read at an offset has the same result
  and leaves the same offset as on a freshly opened item. -/
theorem C28_history_independent (f : FileCtx) (items : Nat → DirEntry) (ops : List StreamOp)
    (i size : Nat) (offset : Int) (hoff : 0 ≤ offset ∧ offset < 2 ^ 63) :
    streamReadAt f (items i) (offsetsAfter f items ops i) size offset =
      if (items i).type = 2 then streamRead f (items i) offset size
      else (.of .err, offsetsAfter f items ops i) := by
  have hcur := C29_offset_never_negative f items ops i
  by_cases ht : (items i).type = 2
  · rw [if_pos ht]
    unfold streamReadAt
    rw [((C29_seek ht hcur offset .set).1 offset rfl hoff.1 hoff.2).1]
  · rw [if_neg ht]
    exact (C31_only_streams f ht _ size offset .set).2.2.2

/-- C28: operations on other items do not change the offset of an item. -/
theorem C28_other_items (f : FileCtx) (items : Nat → DirEntry) (st : Nat → Int) (op : StreamOp)
    (k : Nat) (hk : match op with
      | .read i _ => k ≠ i
      | .seek i _ _ => k ≠ i
      | .readAt i _ _ => k ≠ i) :
    op.run f items st k = st k := by
  cases op <;> simp only [StreamOp.run] <;> exact if_neg hk

example : (streamReadAt sampleCtx (streamEntry 2 20) (offsetsAfter sampleCtx
    (fun _ => streamEntry 2 20) [.read 0 5, .seek 1 3 .fromEnd, .readAt 0 9 15] 0) 4 14).1.res =
    .ok [162, 163, 132, 133] := by decide +kernel

/-! ### C32, C33: where and how often the device is read -/

/-- C32: for every device, each byte a read asks the device for is a byte of the stream: it lies
  at the position of a byte of the requested range.  (`bytePos` is inside a sector of the chain,
  or of the short stream container, by definition.)  Partial: `Nested` is assumed, and `bytePos`
  counts the identifier 0xffffffff as a sector, see `C32_header_leak_violated`. -/
theorem C32_reads_confined_partial {f : FileCtx} (h : WellFormedCtx f) {d : DirEntry} (hd : StreamOk f d)
    (hn : Nested f d) (cur size : Nat) :
    ∀ r ∈ (streamRead f d cur size).1.reads, ∀ p, r.1 ≤ p → p < r.1 + r.2 →
      ∃ i, cur ≤ i ∧ i < cur + min size (d.size - cur) ∧ bytePos f d i = some p := by
  intro r hr p hp1 hp2
  by_cases hsz : size ≤ SSIZE_MAX
  · rw [streamRead_eq hd.isStream hsz] at hr
    by_cases hc : d.size ≤ cur
    · rw [if_pos hc] at hr
      cases hr
    · rw [if_neg hc] at hr
      have hcl := clamp_le d cur size
      have hfit := hd.fits.size
      have hsec : d.size ≤ unitOf f d * INT_MAX := hd.sectors
      obtain ⟨s1, -, -, s4⟩ := readStream_safe h hd.fits (off := cur) (size := clamp d cur size)
        (by omega) (by omega) (by omega)
      have hr' : r ∈ (readStream f d cur (clamp d cur size)).reads := by
        simp only [] at hr
        rcases s1 with s1 | ⟨data', s1, s3⟩
        · rw [s1] at hr
          exact hr
        · rw [s1] at hr
          simp only [] at hr
          rw [if_neg (by omega)] at hr
          exact hr
      obtain ⟨-, i, s, q, j1, j2, j3, j4, j5, j6⟩ := s4 r hr'
      have hu : 0 < unitOf f d := by rw [← unit_eq]; exact (unit_bounds h d).1
      have hdm := Nat.div_add_mod i (unitOf f d)
      have e0 : i + (p - r.1) = unitOf f d * (i / unitOf f d) + (i % unitOf f d + (p - r.1)) := by
        omega
      have e1 : (i + (p - r.1)) / unitOf f d = i / unitOf f d := by
        rw [e0, Nat.mul_add_div hu,
          Nat.div_eq_of_lt (show i % unitOf f d + (p - r.1) < unitOf f d by omega), Nat.add_zero]
      have e2 : (i + (p - r.1)) % unitOf f d = i % unitOf f d + (p - r.1) := by
        rw [e0, Nat.mul_add_mod,
          Nat.mod_eq_of_lt (show i % unitOf f d + (p - r.1) < unitOf f d by omega)]
      refine ⟨i + (p - r.1), by omega, by unfold clamp at *; omega, ?_⟩
      rw [(startPos_bytePos h hn (by rw [e1]; exact j4)).1 j5, e2]
      congr 1
      omega
  · rw [C25_size_limit f d cur size (by unfold SSIZE_MAX at hsz; omega)] at hr
    cases hr

example : (streamRead sampleCtx (streamEntry 2 20) 14 4).1.reads = [(62, 2), (32, 2)] := by
  decide +kernel

/-- A file whose container chain ends with the "unused" mark instead of the end mark. -/
def leakCtx : FileCtx :=
  { sampleCtx with sat := ⟨[0xffffffff]⟩, ssat := ⟨[1, 1, 1, 1, 0xfffffffe]⟩ }

/-- C32, limit: `bytePos` includes the position 0 for the identifier 0xffffffff, which is no
  sector (see `sectorPos`): a small stream of such a file is read, successfully, from the file
  header. -/
theorem C32_header_leak_violated :
    WellFormedCtx leakCtx ∧ StreamOk leakCtx (streamEntry 4 4) ∧
    (streamRead leakCtx (streamEntry 4 4) 0 4).1.res = .ok (sampleContent.take 4) := by
  refine ⟨⟨by decide, by decide, by decide, ⟨by decide, by decide⟩, ⟨by decide, by decide⟩⟩,
    ⟨⟨by decide, by decide⟩, rfl, by decide⟩, by decide +kernel⟩

/-- C32: if neither the chain of the stream nor that of the container reaches the identifier
  0xffffffff, then no read touches the file header. -/
theorem C32_header_not_read {f : FileCtx} (h : WellFormedCtx f) {d : DirEntry} (hd : StreamOk f d)
    (hn : Nested f d) (h1 : ∀ k, nth (tableOf f d) d.start k ≠ some 0xffffffff)
    (h2 : ∀ k, nth f.sat.ids f.io.shortStreamStart k ≠ some 0xffffffff) (cur size : Nat) :
    ∀ r ∈ (streamRead f d cur size).1.reads, 0 < r.2 → f.io.sectorSize ≤ r.1 := by
  intro r hr hpos
  obtain ⟨i, -, -, hi⟩ := C32_reads_confined_partial h hd hn cur size r hr r.1 (Nat.le_refl _) (by omega)
  have hsec : ∀ s, s ≠ 0xffffffff → f.io.sectorSize ≤ sectorPos f.io.sectorSize s := by
    intro s hs
    unfold sectorPos
    rw [if_neg hs, Nat.add_mul]
    omega
  unfold bytePos at hi
  cases hs : nth (tableOf f d) d.start (i / unitOf f d) with
  | none => rw [hs] at hi; cases hi
  | some s =>
    rw [hs] at hi
    simp only [] at hi
    split at hi
    · unfold containerPos at hi
      split at hi
      · next c hc =>
        have := hsec c (fun he => h2 _ (by rw [hc, he]))
        have := Option.some.inj hi
        omega
      · cases hi
    · have := hsec s (fun he => h1 _ (by rw [hs, he]))
      have := Option.some.inj hi
      omega

/-- C33: a read of any stream, on any device, comes to an end and makes at most as many device
  reads as bytes are transferred, whatever the shape of the chains. -/
theorem C33_read_terminates {f : FileCtx} (h : WellFormedCtx f) {d : DirEntry} (hd : StreamOk f d)
    (cur size : Nat) :
    (streamRead f d cur size).1.res ≠ .hang ∧
    (streamRead f d cur size).1.reads.length ≤ min size (d.size - cur) := by
  by_cases hsz : size ≤ SSIZE_MAX
  · rw [streamRead_eq hd.isStream hsz]
    by_cases hc : d.size ≤ cur
    · rw [if_pos hc]
      simp [Out.of]
    · rw [if_neg hc]
      have hcl := clamp_le d cur size
      have hfit := hd.fits.size
      have hsec : d.size ≤ unitOf f d * INT_MAX := hd.sectors
      obtain ⟨s1, -, s3, -⟩ := readStream_safe h hd.fits (off := cur) (size := clamp d cur size)
        (by omega) (by omega) (by omega)
      simp only []
      rcases s1 with s1 | ⟨data', s1, s4⟩
      · rw [s1]
        exact ⟨by simp, s3⟩
      · rw [s1]
        simp only []
        rw [if_neg (by omega)]
        exact ⟨by simp, s3⟩
  · rw [C25_size_limit f d cur size (by unfold SSIZE_MAX at hsz; omega)]
    simp [Out.of]

/-- C33: the walk along the container makes as many steps as there are whole sectors before the
  short sector: with a budget of that many steps it comes to its end. -/
theorem C33_container_walk {f : FileCtx} (h : WellFormedCtx f) (off id fuel : Nat)
    (hf : off / f.io.sectorSize ≤ fuel) :
    containerLoop f.sat f.io.sectorSize fuel off id ≠ .hang ∧
    containerLoop f.sat f.io.sectorSize fuel off id =
      containerLoop f.sat f.io.sectorSize (off / f.io.sectorSize) off id := by
  rw [containerLoop_eq (wf_sat h) h.ss.1 fuel off id hf,
    containerLoop_eq (wf_sat h) h.ss.1 _ off id (Nat.le_refl _)]
  refine ⟨?_, rfl⟩
  split <;> simp

/-- A stream whose chain is a cycle: the read goes round it and ends. -/
example : (streamRead { sampleCtx with sat := ⟨[0xfffffffe, 2, 1]⟩ } (streamEntry 2 64) 30 34).1.res =
    .ok (((sampleContent.drop 46).take 2) ++ ((sampleContent.drop 48).take 16) ++
      ((sampleContent.drop 32).take 16)) := by decide +kernel

/-! ### C50: the sector counter -/

/-- C50: with sectors of at least 4 bytes no read of a stream has undefined behaviour. -/
theorem C50_read_defined_partial {f : FileCtx} (h : WellFormedCtx f) {d : DirEntry}
    (he : EntryFits d) (hu : 4 ≤ unitOf f d) (cur : Int) (size : Nat) :
    (streamRead f d cur size).1.res.Defined := by
  by_cases ht : d.type = 2
  · by_cases hsz : size ≤ 2 ^ 63 - 1
    · rcases Int.lt_or_le cur 0 with hc | hc
      · unfold streamRead
        rw [if_neg (by simp [ht]), if_pos hc]
        trivial
      · obtain ⟨n, rfl⟩ := Int.eq_ofNat_of_zero_le hc
        have hd : StreamOk f d := ⟨he, ht, by
          have := he.size
          have := Nat.mul_le_mul_right 2147483647 hu
          omega⟩
        exact (C25_counts_clamped h hd n size hsz).1
    · rw [C25_size_limit f d cur size (by omega)]
      trivial
  · rw [(C31_only_streams f ht cur size 0 .set).1]
    trivial

/-- Short sectors of one byte, a cyclic chain of one short sector. -/
def overflowCtx : FileCtx where
  io := { majorVersion := 3, minorVersion := 0, sectorSize := 512, shortSectorSize := 1,
          minStreamSize := 0xffffffff, byteOrder := .little, shortStreamStart := 0,
          codepage := 1252 }
  dev := Dev.ofBytes (List.replicate 1024 0)
  sat := ⟨[0xfffffffe]⟩
  ssat := ⟨[0]⟩

theorem overflow_loop : ∀ (size index : Nat), index + size > INT_MAX → index ≤ INT_MAX →
    (streamLoop overflowCtx.io overflowCtx.dev overflowCtx.sat overflowCtx.ssat true 1 size index 0
      index size).res = .ub := by
  intro size
  induction size with
  | zero => intro index h1 h2; omega
  | succ size ih =>
    intro index h1 h2
    unfold streamLoop
    rw [if_neg (by omega)]
    have hpos : streamSectorOffset overflowCtx.io overflowCtx.sat true 0 = .ok 512 := by
      decide +kernel
    have he : ¬ (0 = EOC) := by decide
    simp only [he, if_false, hpos]
    have hskip : (if index > index * 1 then index - index * 1 else 0) = 0 := by
      rw [if_neg (by omega)]
    simp only [hskip]
    have hlen : (if (1 + 2 ^ 64 - 0) % 2 ^ 64 > size + 1 then size + 1
        else (1 + 2 ^ 64 - 0) % 2 ^ 64) = 1 := by
      rw [if_neg (by omega)]
    simp only [hlen]
    rw [if_neg (by unfold INT_MAX at h2; omega)]
    have hget : overflowCtx.dev.get (512 + 0) 1 = some [0] := by decide +kernel
    have hnext : overflowCtx.ssat.next 0 = .ok 0 := by decide +kernel
    simp only [hget, hnext]
    by_cases hi : index + 1 > INT_MAX
    · rw [if_pos hi]
    · rw [if_neg hi]
      have := ih (index + 1) (by omega) (by omega)
      rw [show size + 1 - 1 = size by omega, this]

theorem overflow_wf : WellFormedCtx overflowCtx :=
  ⟨by decide, by decide, by decide, ⟨by decide, by decide⟩, ⟨by decide, by decide⟩⟩

theorem overflow_read (n : Nat) (h1 : INT_MAX < n) (h2 : n < 0xffffffff) :
    (streamRead overflowCtx (streamEntry 0 n) 0 n).1.res = .ub := by
  have hsm : Small overflowCtx (streamEntry 0 n) := h2
  have hu : unitOf overflowCtx (streamEntry 0 n) = 1 := if_pos hsm
  have ht : tableOf overflowCtx (streamEntry 0 n) = [0] := if_pos hsm
  have htab : overflowCtx.table (streamEntry 0 n) = overflowCtx.ssat := by
    unfold FileCtx.table
    rw [short_eq, decide_eq_true hsm, if_pos rfl]
  have e : streamRead overflowCtx (streamEntry 0 n) 0 n = _ :=
    streamRead_eq (f := overflowCtx) (d := streamEntry 0 n) rfl (cur := 0) (size := n)
      (by unfold SSIZE_MAX; omega)
  have hsz : (streamEntry 0 n).size = n := rfl
  have hcl : clamp (streamEntry 0 n) 0 n = n := by unfold clamp; omega
  have hres : (readStream overflowCtx (streamEntry 0 n) ((0 : Nat) : Int) n).res = .ub := by
    rw [readStream_eq overflow_wf (streamEntry 0 n) (off := 0) (by decide)
      (by unfold SSIZE_MAX; omega), hu, ht, if_pos (by decide), htab, short_eq,
      decide_eq_true hsm]
    exact overflow_loop n 0 (by omega) (by omega)
  rw [e, if_neg (by omega)]
  simp only [hcl]
  rw [hres]

/-- C50 fails: a file can declare short sectors of one byte (C01) and streams of almost 2^32 bytes
  to be small; reading one whose chain is a cycle overflows the signed counter of sectors. -/
theorem C50_counter_overflow_violated :
    ∃ f d size, WellFormedCtx f ∧ EntryFits d ∧ d.type = 2 ∧ size ≤ d.size ∧
      (streamRead f d 0 size).1.res = .ub :=
  ⟨overflowCtx, streamEntry 0 0xfffffffe, 0xfffffffe, overflow_wf, ⟨by decide, by decide⟩, rfl,
    Nat.le_refl _, overflow_read 0xfffffffe (by decide) (by decide)⟩

end Olecf.Props
