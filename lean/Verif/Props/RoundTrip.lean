import Verif.Lemmas.EncodeFile
import Verif.Props.FileExamples

/-
  C60: every document can be stored and read back.
-/

namespace Olecf.Props
open Olecf.Spec

/-! ### What an item shows is determined -/

/-- C60, an item shows one document only. -/
theorem C60_shown_unique {t : Tree} {f : FileCtx} {it : Item} {a b : Doc} (ha : Shows t f it a)
    (hb : Shows t f it b) : Same a b := by
  induction ha generalizing b with
  | @stream it data ht _ hs hr =>
    cases hb with
    | @stream _ data' _ _ hs' hr' =>
      have : data = data' := by
        apply List.ext_getElem?
        intro i
        have h := (hr i 1 (by decide)).symm.trans (hr' i 1 (by decide))
        have h' : (data.drop i).take 1 = (data'.drop i).take 1 := by injection h
        have := congrArg (·[0]?) h'
        simpa [List.getElem?_take, List.getElem?_drop] using this
      subst this
      exact .stream _
    | storage ht' => rcases ht' with h | h <;> rw [ht] at h <;> cases h
  | @storage it kids kids' items ht hn hg hp hl hname hsub ih =>
    cases hb with
    | stream ht' => rw [ht'] at ht; rcases ht with h | h <;> cases h
    | @storage _ ks ks' items' _ hn' hg' hp' hl' hname' hsub' =>
      have : items = items' := by
        apply List.ext_getElem?
        intro i
        apply Option.ext
        intro c
        rw [← hg i c, ← hg' i c]
      subst this
      refine .storage hp hp' (hl.symm.trans hl') ?_ ?_
      · intro i x y hx hy
        have hi : i < items.length := by rw [hl]; exact (List.getElem?_eq_some_iff.1 hx).1
        have hc := List.getElem?_eq_getElem hi
        exact (hname i _ x hc hx).symm.trans (hname' i _ y hc hy)
      · intro i x y hx hy
        have hi : i < items.length := by rw [hl]; exact (List.getElem?_eq_some_iff.1 hx).1
        have hc := List.getElem?_eq_getElem hi
        exact ih i _ x hc hx (hsub' i _ y hc hy)

/-- C60, a file holds one document only: two descriptions of what it holds agree up to the order of
  the parts of storages. -/
theorem C60_held_unique {content : Bytes} {names names' : List Bytes} {a b : Doc}
    (ha : FileHolds content names a) (hb : FileHolds content names' b) : Same a b := by
  obtain ⟨l, t, h1, h2, h3⟩ := C47_load ha (fun _ _ => some false)
    (fun _ _ => ⟨fun _ => by simp, fun _ => by simp⟩) .cleared
  obtain ⟨l', t', h1', h2', h3'⟩ := C47_load hb (fun _ _ => some false)
    (fun _ _ => ⟨fun _ => by simp, fun _ => by simp⟩) .cleared
  rw [h1] at h1'
  cases h1'
  rw [h2] at h2'
  cases h2'
  exact C60_shown_unique h3 h3'

/-! ### Every document has a file -/

/-- C60: a document within the limits of the format, stored as the format describes, is what the
  library shows: any file object that is not open, whatever was done with it before, opens the file
  and its root item shows the document. -/
theorem C60_written_document_shown (w : Writer) (kids : List (Bytes × Doc)) (hst : Storable w kids)
    (cmp : Bytes → Bytes → Option Bool) (hcmp : ∀ n ∈ namesOfKids kids, Comparable cmp n)
    (st : FileState) (hr : Reachable cmp st) (hclosed : st.file.handle = none)
    (h : HandleId) (hdev : st.world.dev h = Dev.ofBytes (encodeFile w kids))
    (flags : Nat) (hfl : flags % 4 = 1) :
    (openHandle cmp h flags {} st).1 = .ok () ∧
    ∃ t f it, (openHandle cmp h flags {} st).2.file.tree = some t ∧
      (openHandle cmp h flags {} st).2.file.ctx
        ((openHandle cmp h flags {} st).2.world.dev h) = some f ∧
      rootItem (some t) = some it ∧ Shows t f it (.storage kids) ∧
      ∀ doc, Shows t f it doc → Same doc (.storage kids) := by
  obtain ⟨h1, t, f, it, h2, h3, h4, h5⟩ := C47_document_shown (encodeFile_holds hst) cmp (by
    intro n hn
    rcases List.mem_cons.1 hn with rfl | hn
    · exact rootName_comparable _ _
    · exact hcmp n hn) st hr hclosed h hdev flags hfl
  exact ⟨h1, t, f, it, h2, h3, h4, h5, fun doc hd => C60_shown_unique hd h5⟩

/-- C60, the writer loses nothing: documents with the same file are the same. -/
theorem C60_encode_injective {w w' : Writer} {a b : List (Bytes × Doc)} (ha : Storable w a)
    (hb : Storable w' b) (h : encodeFile w a = encodeFile w' b) : Same (.storage a) (.storage b) := by
  have := encodeFile_holds hb
  rw [← h] at this
  exact C60_held_unique (encodeFile_holds ha) this

/-! ### Documents within the limits -/

theorem sum_units_le {u : Nat} (hu : 0 < u) (ds : List Bytes) :
    (ds.map fun d => units u d.length).sum * u ≤ (ds.map List.length).sum + ds.length * (u - 1) := by
  induction ds with
  | nil => simp
  | cons d ds ih =>
    have h1 : units u d.length * u ≤ d.length + (u - 1) := by
      unfold units
      have := Nat.div_mul_le_self (d.length + u - 1) u
      omega
    simp only [List.map_cons, List.sum_cons, List.length_cons, Nat.add_mul, Nat.one_mul]
    omega

theorem sum_filter_le (p : Bytes → Bool) (ds : List Bytes) :
    ((ds.filter p).map List.length).sum ≤ (ds.map List.length).sum := by
  induction ds with
  | nil => simp
  | cons d ds ih =>
    rw [List.filter_cons]
    split <;> simp only [List.map_cons, List.sum_cons] <;> omega

mutual
theorem doc_streams_length (doc : Doc) : doc.streams.length ≤ doc.count := by
  match doc with
  | .stream data => simp [Doc.streams, Doc.count]
  | .storage kids => rw [Doc.streams, Doc.count]; have := kids_streams_length kids; omega

theorem kids_streams_length (kids : List (Bytes × Doc)) :
    (streamsOfKids kids).length ≤ countKids kids := by
  match kids with
  | [] => simp [streamsOfKids, countKids]
  | (n, d) :: r =>
    rw [streamsOfKids, countKids, List.length_append]
    have := doc_streams_length d
    have := kids_streams_length r
    omega
end

theorem units_le_div {u : Nat} (hu : 0 < u) (n : Nat) : units u n * u ≤ n + (u - 1) := by
  unfold units
  have := Nat.div_mul_le_self (n + u - 1) u
  omega

theorem mem_sum_le : ∀ (ds : List Bytes) (d : Bytes), d ∈ ds → d.length ≤ (ds.map List.length).sum := by
  intro ds
  induction ds with
  | nil => intro d hd; cases hd
  | cons x ds ih =>
    intro d hd
    rw [List.map_cons, List.sum_cons]
    rcases List.mem_cons.1 hd with rfl | hd
    · omega
    · have := ih d hd; omega

/-- Storable with sectors of 512 bytes and short sectors of 64 bytes, from the numbers of entries and
  of sectors. -/
theorem storable_512 (e : Endian) (m : Marks) (hm : m.Fits) (cut : Nat) (hcut : cut < 2 ^ 32) {kids : List (Bytes × Doc)}
    (h0 : kids ≠ []) (hn : ∀ n ∈ namesOfKids kids, n.length ≤ 64) (hc : countKids kids ≤ 4000)
    (hd : ∀ d ∈ streamsOfKids kids, d.length < 2 ^ 32)
    (hshort : Writer.shortUnits ⟨e, 9, 6, cut, m⟩ (streamsOfKids kids) ≤ 32000)
    (hlong : Writer.longUnits ⟨e, 9, 6, cut, m⟩ (streamsOfKids kids) ≤ 4100000) :
    Storable ⟨e, 9, 6, cut, m⟩ kids := by
  have hss : Writer.ss ⟨e, 9, 6, cut, m⟩ = 512 := rfl
  have hsh : Writer.short ⟨e, 9, 6, cut, m⟩ = 64 := rfl
  have hper : Writer.perSector ⟨e, 9, 6, cut, m⟩ = 128 := rfl
  have hslots : Writer.slotsPerSector ⟨e, 9, 6, cut, m⟩ = 4 := rfl
  have hdir : dirCount ⟨e, 9, 6, cut, m⟩ kids ≤ 1001 := units_le (by rw [hslots]; decide) (by rw [hslots]; omega)
  have hcont : (containerOf ⟨e, 9, 6, cut, m⟩ kids).length ≤ 32000 * 64 := by
    unfold containerOf
    rw [flatten_length (u := 64)]
    · refine Nat.mul_le_mul_right _ ?_
      unfold shortSectors
      rw [List.length_flatMap]
      refine Nat.le_trans (Nat.le_of_eq ?_) hshort
      unfold Writer.shortUnits
      congr 1
      exact List.map_congr_left fun x _ => blocks_length (by rw [hsh]; decide) x
    · intro s hs
      obtain ⟨x, _, hx⟩ := List.mem_flatMap.1 hs
      exact blocks_mem_length (by decide) x s hx
  have hssat : (ssatSectorsOf ⟨e, 9, 6, cut, m⟩ kids).length ≤ 250 := by
    unfold ssatSectorsOf
    rw [List.length_map]
    unfold ssatOf
    rw [chunk_length (by rw [hper]; decide) (padUp_length (by rw [hper]; decide) _ _), links_length]
    refine units_le (by rw [hper]; decide) ?_
    rw [hper]
    exact hshort
  have hcs : (containerSectors ⟨e, 9, 6, cut, m⟩ kids).length ≤ 4000 := by
    unfold containerSectors
    rw [blocks_length (by rw [hss]; decide)]
    refine units_le (by rw [hss]; decide) ?_
    rw [hss]
    omega
  have hrun : runCount ⟨e, 9, 6, cut, m⟩ kids ≤ 4105251 := by
    unfold runCount runs
    rw [List.map_cons, List.map_cons, List.map_cons, List.sum_cons, List.sum_cons, List.sum_cons, List.map_map,
      show (List.length ∘ blocks (Writer.ss ⟨e, 9, 6, cut, m⟩)) = fun d => units (Writer.ss ⟨e, 9, 6, cut, m⟩) d.length from
        funext (blocks_length (by rw [hss]; decide)), ← Writer.longUnits]
    have : (dirSectorsOf ⟨e, 9, 6, cut, m⟩ kids).length ≤ 1001 := by
      unfold dirSectorsOf
      rw [List.length_map]
      unfold slotsOfFile
      rw [chunk_length (by rw [hslots]; decide) (padUp_length (by rw [hslots]; decide) _ _), List.length_cons, slotsOfKids_length]
      exact units_le (by rw [hslots]; decide) (by rw [hslots]; omega)
    omega
  have hsat : satCount ⟨e, 9, 6, cut, m⟩ kids ≤ 32582 := by
    refine units_le (by rw [hper]; decide) ?_
    rw [hper]
    omega
  have hmsat : msatCount ⟨e, 9, 6, cut, m⟩ kids ≤ 257 := by
    refine units_le (by rw [hper]; decide) ?_
    rw [hper]
    omega
  exact ⟨⟨Nat.le_refl 9, by show 9 ≤ 15; decide⟩, by show 6 ≤ 9; decide, hcut, hm, h0, hn, hd, by omega, by omega, by omega, hmsat, by
    rw [hss]; omega⟩

/-- C60, what is within the limits: up to 4000 entries with names of up to 64 bytes and streams of two
  thousand million bytes altogether fit in a file with sectors of 512 bytes and no short sectors; up
  to a million bytes with the usual short sectors of 64 bytes for streams of less than 4096. -/
theorem C60_storable (e : Endian) (m : Marks) (hm : m.Fits) {kids : List (Bytes × Doc)}
    (h0 : kids ≠ []) (hn : ∀ n ∈ namesOfKids kids, n.length ≤ 64) (hc : countKids kids ≤ 4000) :
    (((streamsOfKids kids).map List.length).sum ≤ 2000000000 → Storable ⟨e, 9, 6, 0, m⟩ kids) ∧
    (((streamsOfKids kids).map List.length).sum ≤ 1000000 → Storable ⟨e, 9, 6, 4096, m⟩ kids) := by
  have hlen := kids_streams_length kids
  have key : ∀ cut, ((streamsOfKids kids).map List.length).sum ≤ 2000000000 →
      Writer.longUnits ⟨e, 9, 6, cut, m⟩ (streamsOfKids kids) ≤ 4100000 := by
    intro cut ht
    have h1 := sum_units_le (u := 512) (by decide) (Writer.longs ⟨e, 9, 6, cut, m⟩ (streamsOfKids kids))
    have h2 : _ ≤ _ := sum_filter_le (fun d => decide (cut ≤ d.length)) (streamsOfKids kids)
    have h3 : _ ≤ _ := List.length_filter_le (fun d => decide (cut ≤ d.length)) (streamsOfKids kids)
    have h4 : (Writer.longs ⟨e, 9, 6, cut, m⟩ (streamsOfKids kids)) =
      (streamsOfKids kids).filter (fun d => decide (cut ≤ d.length)) := rfl
    have h5 : Writer.longUnits ⟨e, 9, 6, cut, m⟩ (streamsOfKids kids) =
      ((Writer.longs ⟨e, 9, 6, cut, m⟩ (streamsOfKids kids)).map fun d => units 512 d.length).sum := rfl
    rw [← h4] at h2 h3
    rw [← h5] at h1
    omega
  constructor
  · intro ht
    refine storable_512 e m hm 0 (by decide) h0 hn hc (fun d hd => ?_) ?_ (key 0 ht)
    · have := mem_sum_le _ d hd; omega
    · simp [Writer.shortUnits, Writer.shorts]
  · intro ht
    refine storable_512 e m hm 4096 (by decide) h0 hn hc (fun d hd => ?_) ?_ (key 4096 (by omega))
    · have := mem_sum_le _ d hd; omega
    · have h1 := sum_units_le (u := 64) (by decide) (Writer.shorts ⟨e, 9, 6, 4096, m⟩ (streamsOfKids kids))
      have h2 : _ ≤ _ := sum_filter_le (fun d => decide (d.length < 4096)) (streamsOfKids kids)
      have h3 : _ ≤ _ := List.length_filter_le (fun d => decide (d.length < 4096)) (streamsOfKids kids)
      have h4 : (Writer.shorts ⟨e, 9, 6, 4096, m⟩ (streamsOfKids kids)) =
        (streamsOfKids kids).filter (fun d => decide (d.length < 4096)) := rfl
      have h5 : Writer.shortUnits ⟨e, 9, 6, 4096, m⟩ (streamsOfKids kids) =
        ((Writer.shorts ⟨e, 9, 6, 4096, m⟩ (streamsOfKids kids)).map fun d => units 64 d.length).sum := rfl
      rw [← h4] at h2 h3
      rw [← h5] at h1
      omega

/-! ### An example -/

def longStream : Bytes := List.replicate 5000 7

theorem longStream_length : longStream.length = 5000 := List.length_replicate

/-- A document with a stream of 5000 bytes, a storage with a small and an empty stream, and a storage
  without content. -/
def smallDoc : List (Bytes × Doc) :=
  [([65, 0], .stream longStream),
   ([66, 0], .storage [([67, 0], .stream [1, 2, 3]), ([68, 0], .stream [])]),
   ([69, 0], .storage [])]

theorem smallDoc_storable (e : Endian) : Storable ⟨e, 9, 6, 4096, {}⟩ smallDoc := by
  refine (C60_storable e {} noMarks_fits (by simp [smallDoc]) ?_ ?_).2 ?_
  · simp [smallDoc, namesOfKids, Doc.names]
  · simp [smallDoc, countKids, Doc.count]
  · simp [smallDoc, streamsOfKids, Doc.streams, longStream_length]

/-- A world in which the handles of the caller deliver the file with this document. -/
def smallState (e : Endian) : FileState :=
  ⟨OleFile.new, { sampleWorld with dev := fun _ => Dev.ofBytes (encodeFile ⟨e, 9, 6, 4096, {}⟩ smallDoc) }⟩

/-- The document is shown, in both byte orders (C60_written_document_shown). -/
example (e : Endian) : (openHandle cmpNone (.user 1) 1 {} (smallState e)).1 = .ok () ∧
    ∃ t f it, (openHandle cmpNone (.user 1) 1 {} (smallState e)).2.file.tree = some t ∧
      (openHandle cmpNone (.user 1) 1 {} (smallState e)).2.file.ctx
        ((openHandle cmpNone (.user 1) 1 {} (smallState e)).2.world.dev (.user 1)) = some f ∧
      rootItem (some t) = some it ∧ Shows t f it (.storage smallDoc) ∧
      ∀ doc, Shows t f it doc → Same doc (.storage smallDoc) :=
  C60_written_document_shown _ smallDoc (smallDoc_storable e) cmpNone (by
    intro n _
    exact ⟨fun _ => by simp [cmpNone], fun _ => by simp [cmpNone]⟩) (smallState e)
    ⟨smallState e, [], ⟨rfl, rfl⟩, rfl⟩ rfl (.user 1) rfl 1 rfl

/-- The two files of the sample document of `Props/Sample.lean` hold the same document
  (C60_held_unique); the sample document has another hierarchy than the small one. -/
example : ¬ Same sampleDoc (.storage smallDoc) := by
  intro h
  unfold sampleDoc smallDoc at h
  cases h with
  | @storage _ a' _ b' h1 h2 h3 h4 h5 =>
    have hb := h2.mem_iff (a := ([69, 0], .storage []))
    have hm : (([69, 0] : Bytes), Doc.storage []) ∈ b' := hb.2 (by rw [List.mem_cons, List.mem_cons, List.mem_singleton]; exact Or.inr (Or.inr rfl))
    obtain ⟨i, hi, he⟩ := List.mem_iff_getElem.1 hm
    have hia : i < a'.length := by omega
    have hn := h4 i _ _ (List.getElem?_eq_getElem hia) (List.getElem?_eq_getElem hi)
    have ha := h1.mem_iff.1 (List.getElem_mem hia)
    rw [he] at hn
    simp only [List.mem_cons, List.not_mem_nil, or_false] at ha
    rcases ha with ha | ha | ha <;> rw [ha] at hn <;> exact absurd hn (by decide)

end Olecf.Props
