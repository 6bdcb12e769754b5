import Verif.Lemmas.MemSet
import Verif.Props.PropSet

/-
  C92: the memory of property sets.
-/

namespace Olecf.Props
open Spec Lemmas

theorem header_of_mark {f : FileCtx} (h : WellFormedCtx f) {d : DirEntry} (hd : StreamOk f d)
    (cur : Nat) : (setHeader f d cur).1 ≠ .err ↔ HasMark f d := by
  have hseek : seekTo d ((0 : Nat) : Int) cur = (.ok (), ((0 : Nat) : Int)) :=
    (seekTo_ok hd.isStream 0 cur (by omega)).2 rfl
  have hh : setHeader f d cur = Reader.bind (readExactly f d 28)
      (fun b => Reader.of (readSetHeader b)) ((0 : Nat) : Int) := by
    unfold setHeader
    show Reader.bind (seekTo d ((0 : Nat) : Int)) _ _ = _
    unfold Reader.bind
    rw [hseek]
    rfl
  rw [hh]
  unfold Reader.bind
  have hdef := readExactly_defined h hd 0 28 (by omega)
  cases hr : readExactly f d 28 ((0 : Nat) : Int) with
  | mk r c =>
    rw [hr] at hdef
    cases r with
    | ok b =>
      obtain ⟨hb, -⟩ := (readExactly_ok h hd 0 28).1 hr
      have hl : b.length = 28 := by
        have := hb
        unfold streamContent at this
        split at this
        · split at this
          · cases this; assumption
          · cases this
        · cases this
      show readSetHeader b ≠ .err ↔ _
      rw [readSetHeader_eq hl]
      constructor
      · intro hne
        refine ⟨b, hb, ?_⟩
        split at hne
        · exact .inl (by assumption)
        · split at hne
          · exact .inr (by assumption)
          · exact absurd rfl hne
      · rintro ⟨b', hb', hm⟩
        rw [hb] at hb'
        cases hb'
        split
        · simp
        · split
          · simp
          · rename_i h1 h2
            rcases hm with hm | hm
            · exact absurd hm h1
            · exact absurd hm h2
    | err =>
      simp only [ne_eq, not_true_eq_false, false_iff]
      rintro ⟨b, hb, -⟩
      have := (readExactly_ok h hd 0 28).2 ⟨hb, rfl⟩
      rw [hr] at this
      cases this
    | ub => exact hdef.elim
    | hang => exact hdef.elim

/-- A step that keeps the offset of the stream from being negative. -/
def StaysInside (r : Reader α) : Prop := ∀ cur : Nat, ∃ c : Nat, (r cur).2 = c

theorem inside_bind {r : Reader α} {k : α → Reader β} (hr : StaysInside r)
    (hk : ∀ a, StaysInside (k a)) : StaysInside (r >>= k) := by
  intro cur
  obtain ⟨c, hc⟩ := hr cur
  show ∃ c : Nat, (Reader.bind r k cur).2 = c
  unfold Reader.bind
  revert hc
  rcases r cur with ⟨q, s⟩
  intro hc
  dsimp only at hc
  subst hc
  cases q
  · exact hk _ c
  all_goals exact ⟨c, rfl⟩

theorem inside_of (r : Res α) : StaysInside (Reader.of r) := fun cur => ⟨cur, rfl⟩

theorem inside_pure (a : α) : StaysInside (pure a : Reader α) := fun cur => ⟨cur, rfl⟩

theorem inside_seek (d : DirEntry) (off : Int) : StaysInside (seekTo d off) := by
  intro cur
  unfold seekTo streamSeek
  by_cases h1 : d.type ≠ typeStream
  · rw [if_pos h1]; exact ⟨cur, rfl⟩
  · rw [if_neg h1, if_neg (by omega), if_neg (by simp)]
    dsimp only
    by_cases h2 : ¬ inOff64 off
    · rw [if_pos h2]; exact ⟨cur, rfl⟩
    · rw [if_neg h2]
      by_cases h3 : off < 0
      · rw [if_pos h3]; exact ⟨cur, rfl⟩
      · rw [if_neg h3]; exact ⟨off.toNat, by show off = _; omega⟩

theorem inside_tell (d : DirEntry) : StaysInside (tell d) := fun cur => ⟨cur, rfl⟩

theorem inside_read {f : FileCtx} (h : WellFormedCtx f) {d : DirEntry} (hd : StreamOk f d)
    (n : Nat) : StaysInside (readExactly f d n) := by
  intro cur
  obtain ⟨h1, h2⟩ := C26_offset_advances h hd cur n
  have h3 : (streamRead f d cur n).1.res = .ub ∨ (streamRead f d cur n).1.res = .hang →
      (streamRead f d cur n).2 = cur := by
    intro hr
    revert hr
    unfold streamRead
    dsimp only
    repeat' split
    all_goals simp_all [Out.of]
  unfold readExactly
  revert h1 h2 h3
  rcases streamRead f d cur n with ⟨out, c⟩
  intro h1 h2 h3
  dsimp only at h1 h2 h3 ⊢
  cases hr : out.res with
  | ok b =>
    have := h1 b hr
    refine ⟨cur + b.length, ?_⟩
    dsimp only
    split <;> (show c = _; omega)
  | err => exact ⟨cur, h2 hr⟩
  | ub => exact ⟨cur, h3 (.inl hr)⟩
  | hang => exact ⟨cur, h3 (.inr hr)⟩

theorem inside_multi {f : FileCtx} (h : WellFormedCtx f) {d : DirEntry} (hd : StreamOk f d)
    (e : Endian) : ∀ n off, StaysInside (multiLoop f d e n off)
  | 0, _ => inside_pure _
  | n + 1, off => by
    unfold multiLoop
    split
    · exact inside_of _
    · refine inside_bind (inside_read h hd _) fun b => inside_bind (inside_of _) fun size => ?_
      split
      · exact inside_of _
      · split
        · exact inside_of _
        · exact inside_bind (inside_read h hd _) fun _ => inside_multi h hd e n _

theorem inside_data {f : FileCtx} (h : WellFormedCtx f) {d : DirEntry} (hd : StreamOk f d)
    (e : Endian) (type size : Nat) : StaysInside (readValueData f d e type size) := by
  unfold readValueData
  split
  · exact inside_pure _
  · dsimp only
    split
    · exact inside_of _
    · refine inside_bind (inside_read h hd _) fun b => inside_bind (inside_of _) fun size => ?_
      split
      · exact inside_bind (inside_of _) fun _ => inside_pure _
      · exact inside_pure _

theorem inside_value {f : FileCtx} (h : WellFormedCtx f) {d : DirEntry} (hd : StreamOk f d)
    (e : Endian) (off : Nat) : StaysInside (readValue f d e off) := by
  unfold readValue
  split
  · exact inside_of _
  · refine inside_bind (inside_seek d _) fun _ => inside_bind (inside_read h hd _) fun b =>
      inside_bind (inside_of _) fun type => ?_
    split
    · split
      · exact inside_of _
      · exact inside_bind (inside_read h hd _) fun _ => inside_bind (inside_of _) fun n =>
          inside_bind (inside_multi h hd e n _) fun _ => inside_pure _
    · exact inside_pure _
    · exact inside_bind (inside_data h hd e _ _) fun _ => inside_pure _
    · exact inside_bind (inside_read h hd _) fun _ => inside_bind (inside_of _) fun n =>
        inside_bind (inside_data h hd e _ _) fun _ => inside_pure _

theorem inside_props {f : FileCtx} (h : WellFormedCtx f) {d : DirEntry} (hd : StreamOk f d)
    (e : Endian) (sec : Nat) : ∀ n entry, StaysInside (propsLoop f d e sec n entry)
  | 0, _ => inside_pure _
  | n + 1, entry => by
    unfold propsLoop readValueEntry
    refine inside_bind (inside_seek d _) fun _ => inside_bind (inside_bind (inside_read h hd _)
      fun b => inside_bind (inside_of _) fun _ => inside_bind (inside_of _) fun _ =>
        inside_pure _) fun p => ?_
    obtain ⟨id, off⟩ := p
    dsimp only
    split
    · exact inside_of _
    · exact inside_bind (inside_tell d) fun _ => inside_bind (inside_value h hd e _) fun _ =>
        inside_bind (inside_props h hd e sec n _) fun _ => inside_pure _

theorem inside_sections {f : FileCtx} (h : WellFormedCtx f) {d : DirEntry} (hd : StreamOk f d)
    (e : Endian) : ∀ n entry, StaysInside (sectionsLoop f d e n entry)
  | 0, _ => inside_pure _
  | n + 1, entry => by
    unfold sectionsLoop readSectionEntry readSection
    refine inside_bind (inside_seek d _) fun _ => inside_bind (inside_bind (inside_read h hd _)
      fun b => inside_bind (inside_of _) fun _ => inside_bind (inside_of _) fun _ =>
        inside_pure _) fun p => ?_
    obtain ⟨cls, off⟩ := p
    dsimp only
    exact inside_bind (inside_tell d) fun _ => inside_bind (inside_bind (inside_seek d _) fun _ =>
      inside_bind (inside_read h hd _) fun _ => inside_bind (inside_of _) fun _ =>
        inside_props h hd e _ _ _) fun _ =>
        inside_bind (inside_sections h hd e n _) fun _ => inside_pure _

theorem readSet_offset {f : FileCtx} (h : WellFormedCtx f) {d : DirEntry} (hd : StreamOk f d) :
    StaysInside (readSet f d) := by
  unfold readSet
  refine inside_bind (inside_seek d _) fun _ => inside_bind (inside_read h hd _) fun b =>
    inside_bind (inside_of _) fun p => ?_
  exact inside_bind (inside_sections h hd _ _ _) fun _ => inside_pure _

/-! ### C92: what is allocated for a property set is freed -/

/-- C92: whatever the stream contains and whichever requests for memory fail, reading a property
  set and freeing the set that was read neither frees nor uses a block that is not in use. -/
theorem C92_no_bad_free (f : FileCtx) (d : DirEntry) (cur : Int) {h : Heap} (hs : Sound h) :
    Sound (memGetSet f d cur h).2.2 ∧
    ∀ set, (memGetSet f d cur h).1 = .ok set → ∀ cur',
      Sound (freeSet set cur' (memGetSet f d cur h).2.2).2.2 := by
  obtain ⟨h1, -, h3, -⟩ := memGetSet_spec f d cur h h.live hs (.refl _)
  refine ⟨h1, fun set hset cur' => ?_⟩
  exact (freeSet_triple (exc := fun _ => True) set h.live cur' _ [] h1
    (by rw [List.append_nil]; exact h3 set hset)).1

/-- C92: a set that was read holds exactly its own blocks, its section's and its properties', and
  freeing it leaves the blocks that were in use before it was asked for. -/
theorem C92_set_is_freed (f : FileCtx) (d : DirEntry) (cur : Int) {h : Heap} (hs : Sound h)
    {set : MSet} (hset : (memGetSet f d cur h).1 = .ok set) :
    Gained h (setBlocks set) (memGetSet f d cur h).2.2 ∧
    ∀ cur', (freeSet set cur' (memGetSet f d cur h).2.2).1 = .ok () ∧
      SameBlocks h (freeSet set cur' (memGetSet f d cur h).2.2).2.2 := by
  obtain ⟨h1, -, h3, -⟩ := memGetSet_spec f d cur h h.live hs (.refl _)
  refine ⟨h3 set hset, fun cur' => ⟨(quiet_freeSet set cur' _).1, ?_⟩⟩
  have hf := (freeSet_triple (exc := fun _ => True) set h.live cur' _ [] h1
    (by rw [List.append_nil]; exact h3 set hset)).2.2.1 () (quiet_freeSet set cur' _).1
  rwa [List.append_nil] at hf

/-- The outcome of a read, as the program that asked for it sees it. -/
def seenOutcome : Res MSet → Res PropSet
  | .ok s => .ok s.view
  | .err => .err
  | .ub => .ub
  | .hang => .hang

/-- C92: with memory for every request, the outcome of the read and the offset of the stream are
  those of `readSet`, of which C38 to C41 and C53 speak. -/
theorem C92_same_outcome (f : FileCtx) (d : DirEntry) (cur : Int) {h : Heap} (ha : Ample h) :
    (seenOutcome (memGetSet f d cur h).1, (memGetSet f d cur h).2.1) = readSet f d cur := by
  obtain ⟨-, h2, h3⟩ := memGetSet_computes f d cur h ha
  revert h2 h3
  rcases memGetSet f d cur h with ⟨r, s', h'⟩
  rcases readSet f d cur with ⟨q, s''⟩
  intro h2 h3
  dsimp only at h2 h3
  subst h2
  cases r <;> dsimp only at h3 <;> subst h3 <;> rfl

/-- C92, what holds of a read that fails: all blocks are given back but those of at most one
  section, and none is kept if the stream has no byte order mark.  The full claim is that none is
  kept in any case. -/
theorem C92_failure_partial {f : FileCtx} (h : WellFormedCtx f) {d : DirEntry}
    (hd : StreamOk f d) (cur : Nat) {hp : Heap} (hs : Sound hp)
    (he : (memGetSet f d cur hp).1 = .err) :
    SameBlocks hp (memGetSet f d cur hp).2.2 ∨
    HasMark f d ∧ ∃ m : MSection, Gained hp (sectionBlocks m) (memGetSet f d cur hp).2.2 := by
  obtain ⟨-, -, -, h4⟩ := memGetSet_spec f d cur hp hp.live hs (.refl _)
  obtain ⟨leak, hk, hl⟩ := h4 he
  rcases hk with ⟨rfl, -⟩ | ⟨hm, m, rfl⟩
  · exact .inl hl
  · exact .inr ⟨(header_of_mark h hd cur).1 hm, m, hl⟩

/-- C92 is violated by every stream that has the header of a property set but cannot be read as
  one: with memory for every request, the section at which the read failed is never freed. -/
theorem C92_failure_violated {f : FileCtx} (h : WellFormedCtx f) {d : DirEntry}
    (hd : StreamOk f d) (cur : Nat) {hp : Heap} (hs : Sound hp) (ha : Ample hp)
    (hm : HasMark f d) (he : (readSet f d cur).1 = .err) :
    (memGetSet f d cur hp).1 = .err ∧
    ∃ m : MSection, Gained hp (sectionBlocks m) (memGetSet f d cur hp).2.2 := by
  have ho := C92_same_outcome f d cur ha
  have hem : (memGetSet f d cur hp).1 = .err := by
    rw [← ho] at he
    revert he
    cases (memGetSet f d cur hp).1 <;> simp [seenOutcome]
  refine ⟨hem, ?_⟩
  obtain ⟨-, -, -, h4⟩ := memGetSet_spec f d cur hp hp.live hs (.refl _)
  obtain ⟨leak, hk, hl⟩ := h4 hem
  rcases hk with ⟨rfl, hk⟩ | ⟨-, m, rfl⟩
  · rcases hk with hk | hk
    · exact absurd ha hk
    · exact absurd hk ((header_of_mark h hd cur).2 hm)
  · exact ⟨m, hl⟩

/-- C92 is violated without a bound: asking `n` times for the set of such a stream loses at least
  `2 n` blocks. -/
theorem C92_unbounded_violated {f : FileCtx} (h : WellFormedCtx f) {d : DirEntry}
    (hd : StreamOk f d) (hm : HasMark f d) (he : (readSet f d 0).1 = .err) :
    ∀ (n : Nat) (cur : Nat) {hp : Heap}, Sound hp → Ample hp →
      hp.live.length + 2 * n ≤ (afterReads f d n cur hp).live.length
  | 0, _, hp, _, _ => Nat.le_refl _
  | n + 1, cur, hp, hs, ha => by
    have hread : readSet f d cur = readSet f d ((0 : Nat) : Int) :=
      ((C53_defined h hd cur).2 0).symm
    have he' : (readSet f d cur).1 = .err := by rw [hread]; exact he
    obtain ⟨h1, m, hg⟩ := C92_failure_violated h hd cur hs ha hm he'
    obtain ⟨k1, k2, -, -⟩ := memGetSet_spec f d cur hp hp.live hs (.refl _)
    have ho := C92_same_outcome f d cur ha
    obtain ⟨c, hc⟩ := readSet_offset h hd cur
    rw [← ho] at hc
    unfold afterReads
    revert h1 hg k1 k2 hc
    rcases memGetSet f d cur hp with ⟨r, s', h'⟩
    intro h1 hg k1 k2 hc
    dsimp only at h1 hg k1 k2 hc
    subst h1
    subst hc
    dsimp only
    have hl := hg.length_eq
    rw [List.length_append] at hl
    have ih := C92_unbounded_violated h hd hm he n c (hp := h') k1 (fun i => by rw [k2]; exact ha i)
    have h2 : 2 ≤ (sectionBlocks m).length := by
      unfold sectionBlocks
      simp
    omega

/-- The hypotheses of the theorems on failures: a set with one property whose data offset is 8 is
  refused, and its header is in order. -/
example : WellFormedCtx (setFile (oneProperty 8 [0])) ∧
    StreamOk (setFile (oneProperty 8 [0])) (setEntry (oneProperty 8 [0])) ∧
    HasMark (setFile (oneProperty 8 [0])) (setEntry (oneProperty 8 [0])) ∧
    (readSet (setFile (oneProperty 8 [0])) (setEntry (oneProperty 8 [0])) 0).1 = .err :=
  ⟨setFile_wellFormed _, setFile_streamOk (by decide), 
    ⟨((oneProperty 8 [0]).take 28), by decide +kernel, .inl (by decide +kernel)⟩,
    by decide +kernel⟩

/-- On an empty heap with memory for every request: four blocks after two reads of that stream
  (the section and its array, twice), none after two reads of a stream that is in order, and two
  after a read at which the request for the first property fails. -/
example : (afterReads (setFile (oneProperty 8 [0])) (setEntry (oneProperty 8 [0])) 2 0
      (emptyHeap fun _ => true)).live = [8, 7, 3, 2] ∧
    (memGetSet (setFile (sampleSetBytes .little)) (setEntry (sampleSetBytes .little)) 7
      (emptyHeap fun _ => true)).2.2.live.length = 14 ∧
    (afterReads (setFile (sampleSetBytes .little)) (setEntry (sampleSetBytes .little)) 2 0
      (emptyHeap fun _ => true)).live = [] ∧
    (afterReads (setFile (sampleSetBytes .little)) (setEntry (sampleSetBytes .little)) 1 0
      (emptyHeap fun n => n ≠ 4)).live = [3, 2] := by
  decide +kernel

/-- An empty heap is sound. -/
example (g : Nat → Bool) : Sound (emptyHeap g) := ⟨rfl, List.nodup_nil, fun _ h => by cases h⟩

end Olecf.Props
