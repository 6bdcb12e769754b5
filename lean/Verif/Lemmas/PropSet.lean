import Verif.Spec.PropSet
import Verif.Lemmas.Bytes
import Verif.Props.Stream

namespace Olecf
open Spec

/-! ### Readers -/

theorem reader_bind_ok {m : Reader α} {k : α → Reader β} {cur c : Int} {b : β} :
    (m >>= k) cur = (.ok b, c) ↔ ∃ a c', m cur = (.ok a, c') ∧ k a c' = (.ok b, c) := by
  show Reader.bind m k cur = _ ↔ _
  unfold Reader.bind
  rcases hm : m cur with ⟨r, c'⟩
  cases r with
  | ok a =>
    constructor
    · intro hk; exact ⟨a, c', rfl, hk⟩
    · rintro ⟨a', c'', he, hk⟩
      cases he
      exact hk
  | err => simp
  | ub => simp
  | hang => simp

theorem reader_pure_ok {a b : α} {cur c : Int} :
    (pure a : Reader α) cur = (.ok b, c) ↔ a = b ∧ c = cur := by
  show ((Res.ok a, cur) : Res α × Int) = _ ↔ _
  simp [eq_comm]

theorem reader_of_ok {r : Res α} {b : α} {cur c : Int} :
    Reader.of r cur = (.ok b, c) ↔ r = .ok b ∧ c = cur := by
  unfold Reader.of
  simp [eq_comm]

theorem reader_fail_ok {b : α} {cur c : Int} :
    (Reader.fail : Reader α) cur = (.ok b, c) ↔ False := by
  unfold Reader.fail Reader.of
  simp

theorem reader_bind_defined {m : Reader α} {k : α → Reader β} {cur : Int}
    (hm : (m cur).1.Defined) (hk : ∀ a c, m cur = (.ok a, c) → (k a c).1.Defined) :
    ((m >>= k) cur).1.Defined := by
  show (Reader.bind m k cur).1.Defined
  unfold Reader.bind
  rcases h : m cur with ⟨r, c'⟩
  rw [h] at hm
  cases r with
  | ok a => exact hk a c' h
  | err => trivial
  | ub => exact hm
  | hang => exact hm

theorem seekTo_ok {d : DirEntry} (hd : d.type = 2) (off cur : Nat) (ho : off < 2 ^ 63) {c : Int}
    {u : Unit} :
    seekTo d off cur = (.ok u, c) ↔ c = off := by
  have hseek : streamSeek d cur off .set = (.ok (off : Int), (off : Int)) := by
    unfold streamSeek
    rw [if_neg (by simp [hd]), if_neg (by omega), if_neg (by simp)]
    simp only []
    rw [if_neg (by simp only [inOff64]; omega), if_neg (by omega)]
  unfold seekTo
  rw [hseek]
  simp [eq_comm]

theorem seekTo_defined {d : DirEntry} (off cur : Nat) (ho : off < 2 ^ 63) :
    (seekTo d off cur).1.Defined := by
  by_cases hd : d.type = 2
  · rw [(seekTo_ok hd off cur ho (c := off) (u := ())).2 rfl]; trivial
  · unfold seekTo streamSeek
    rw [if_pos hd]; trivial

theorem tell_ok {d : DirEntry} (hd : d.type = 2) {cur c o : Int} :
    tell d cur = (.ok o, c) ↔ o = cur ∧ c = cur := by
  unfold tell streamGetOffset
  rw [if_neg (by simp [hd])]
  simp [eq_comm]

theorem readExactly_ok {f : FileCtx} (h : WellFormedCtx f) {d : DirEntry} (hd : StreamOk f d)
    (pos n : Nat) {b : Bytes} {c : Int} :
    readExactly f d n pos = (.ok b, c) ↔
      streamContent f d pos n = some b ∧ c = ((pos + n : Nat) : Int) := by
  have h26 := (Props.C26_offset_advances h hd pos n).1
  unfold readExactly streamContent
  rcases hr : streamRead f d pos n with ⟨out, c'⟩
  rw [hr] at h26
  simp only []
  cases ho : out.res with
  | ok b' =>
    simp only []
    have hc := h26 b' ho
    by_cases hl : b'.length = n
    · rw [if_pos hl, if_pos hl]
      subst hl
      simp only [Prod.mk.injEq, Res.ok.injEq, Option.some.injEq]
      constructor
      · rintro ⟨rfl, rfl⟩; exact ⟨rfl, by simpa using hc⟩
      · rintro ⟨rfl, hc'⟩; exact ⟨rfl, by rw [hc']; simpa using hc⟩
    · rw [if_neg hl, if_neg hl]; simp
  | err => simp
  | ub => simp
  | hang => simp

theorem readExactly_defined {f : FileCtx} (h : WellFormedCtx f) {d : DirEntry} (hd : StreamOk f d)
    (pos n : Nat) (hn : n ≤ 2 ^ 63 - 1) : (readExactly f d n pos).1.Defined := by
  have h25 := (Props.C25_counts_clamped h hd pos n hn).1
  unfold readExactly
  rcases hr : streamRead f d pos n with ⟨out, c'⟩
  rw [hr] at h25
  simp only [] at h25 ⊢
  cases ho : out.res with
  | ok b => simp only []; split <;> trivial
  | err => trivial
  | ub => rw [ho] at h25; exact h25
  | hang => rw [ho] at h25; exact h25

theorem streamContent_length {f : FileCtx} {d : DirEntry} {pos n : Nat} {b : Bytes}
    (h : streamContent f d pos n = some b) : b.length = n := by
  unfold streamContent at h
  split at h
  · split at h
    · cases h; assumption
    · cases h
  · cases h

/-- What can be read lies within the size of the stream. -/
theorem streamContent_within {f : FileCtx} (h : WellFormedCtx f) {d : DirEntry}
    (hd : StreamOk f d) {pos n : Nat} {b : Bytes} (hn : n ≤ 2 ^ 63 - 1) (hn0 : 0 < n)
    (hc : streamContent f d pos n = some b) : pos + n ≤ d.size := by
  have hl := streamContent_length hc
  unfold streamContent at hc
  cases hr : (streamRead f d pos n).1.res with
  | ok b' =>
    have := (Props.C25_counts_clamped h hd pos n hn).2.1 b' hr
    rw [hr] at hc
    simp only [] at hc
    split at hc
    · omega
    · cases hc
  | err => rw [hr] at hc; cases hc
  | ub => rw [hr] at hc; cases hc
  | hang => rw [hr] at hc; cases hc

theorem word_some {c : Content} {e : Endian} {pos v : Nat} :
    c.word e pos = some v ↔ ∃ b, c pos 4 = some b ∧ u32At e b 0 = v := by
  unfold Content.word
  simp

/-- A 32-bit value of a stream. -/
theorem readWord_ok {f : FileCtx} (h : WellFormedCtx f) {d : DirEntry} (hd : StreamOk f d)
    {e : Endian} (pos : Nat) {k : Nat → Reader α} {a : α} {c : Int} :
    (do let b ← readExactly f d 4
        let v ← Reader.of (rd32 e b 0)
        k v : Reader α) pos = (.ok a, c) ↔
      ∃ v, (streamContent f d).word e pos = some v ∧ k v ((pos + 4 : Nat) : Int) = (.ok a, c) := by
  rw [reader_bind_ok]
  constructor
  · rintro ⟨b, c', hb, hk⟩
    rw [readExactly_ok h hd] at hb
    obtain ⟨hb, rfl⟩ := hb
    rw [reader_bind_ok] at hk
    obtain ⟨v, c', hv, hk⟩ := hk
    rw [reader_of_ok, rd32_ok e (by rw [streamContent_length hb]; omega)] at hv
    obtain ⟨hv, rfl⟩ := hv
    cases hv
    exact ⟨_, word_some.2 ⟨b, hb, rfl⟩, hk⟩
  · rintro ⟨v, hv, hk⟩
    obtain ⟨b, hb, rfl⟩ := word_some.1 hv
    refine ⟨b, _, (readExactly_ok h hd pos 4).2 ⟨hb, rfl⟩, ?_⟩
    rw [reader_bind_ok]
    refine ⟨_, _, reader_of_ok.2 ⟨rd32_ok e (by rw [streamContent_length hb]; omega), rfl⟩, hk⟩

theorem readWord_defined {f : FileCtx} (h : WellFormedCtx f) {d : DirEntry} (hd : StreamOk f d)
    {e : Endian} (pos : Nat) {k : Nat → Reader α}
    (hk : ∀ v, v < 2 ^ 32 → (k v ((pos + 4 : Nat) : Int)).1.Defined) :
    ((do let b ← readExactly f d 4
         let v ← Reader.of (rd32 e b 0)
         k v : Reader α) pos).1.Defined := by
  apply reader_bind_defined (readExactly_defined h hd pos 4 (by omega))
  intro b c hb
  rw [readExactly_ok h hd] at hb
  obtain ⟨hb, rfl⟩ := hb
  have hr := rd32_ok e (b := b) (o := 0) (by rw [streamContent_length hb]; omega)
  apply reader_bind_defined
  · rw [hr]; trivial
  · intro v c hv
    rw [reader_of_ok] at hv
    obtain ⟨hv, rfl⟩ := hv
    exact hk v (rd32_lt hv)

/-! ### Strings -/

theorem rdByte_zero {data : Bytes} {i : Nat} (hi : i < data.length) :
    ∃ x : UInt8, data[i]? = some x ∧ rdByte data i = .ok x.toNat ∧ (x.toNat = 0 ↔ x = 0) := by
  refine ⟨data[i], List.getElem?_eq_getElem hi, ?_, ?_⟩
  · unfold rdByte
    rw [List.getElem?_eq_getElem hi]
  · constructor
    · intro h0
      apply UInt8.toNat_inj.1
      simpa using h0
    · intro h0; rw [h0]; rfl

theorem asciiSize_eq (data : Bytes) : ∀ (fuel i : Nat), data.length - i < fuel → i ≤ data.length →
    asciiSize data data.length fuel i = .ok (i + (upToNul (data.drop i)).length) := by
  intro fuel
  induction fuel with
  | zero => intro i h; omega
  | succ fuel ih =>
    intro i hf hi
    unfold asciiSize
    by_cases hlt : i < data.length
    · rw [if_pos hlt]
      obtain ⟨x, hx, hr, hz⟩ := rdByte_zero hlt
      have hdrop : data.drop i = x :: data.drop (i + 1) := by
        rw [List.drop_eq_getElem_cons hlt]
        rw [List.getElem?_eq_getElem hlt] at hx
        cases hx
        rfl
      rw [hr, Res.ok_bind, hdrop]
      unfold upToNul
      by_cases h0 : x = 0
      · rw [if_pos (hz.2 h0), if_pos h0]; rfl
      · rw [if_neg (fun h => h0 (hz.1 h)), if_neg h0, ih (i + 1) (by omega) (by omega)]
        simp only [List.length_cons, Res.ok.injEq]
        omega
    · rw [if_neg hlt]
      rw [List.drop_eq_nil_of_le (by omega)]
      rfl

theorem upToNul_prefix : ∀ data : Bytes, data.take (upToNul data).length = upToNul data
  | [] => rfl
  | a :: r => by
    unfold upToNul
    split
    · next h => subst h; simp
    · simp [upToNul_prefix r]

theorem upToNul_pos {data : Bytes} (h : 0 < data.length) : 0 < (upToNul data).length := by
  cases data with
  | nil => simp at h
  | cons a r => unfold upToNul; split <;> simp

theorem unicodeSize_eq (data : Bytes) : ∀ (fuel i : Nat), data.length - i < fuel →
    i ≤ data.length → (data.length - i) % 2 = 0 →
    unicodeSize data data.length fuel i = .ok (i + (upToNulUnit (data.drop i)).length) := by
  intro fuel
  induction fuel with
  | zero => intro i h; omega
  | succ fuel ih =>
    intro i hf hi hev
    unfold unicodeSize
    by_cases hlt : i < data.length
    · rw [if_pos hlt]
      have hlt' : i + 1 < data.length := by omega
      obtain ⟨x, hx, hr, hz⟩ := rdByte_zero hlt
      obtain ⟨y, hy, hr', hz'⟩ := rdByte_zero hlt'
      have hdrop : data.drop i = x :: y :: data.drop (i + 2) := by
        rw [List.drop_eq_getElem_cons hlt, List.drop_eq_getElem_cons hlt']
        rw [List.getElem?_eq_getElem hlt] at hx
        rw [List.getElem?_eq_getElem hlt'] at hy
        cases hx; cases hy
        rfl
      rw [hr, Res.ok_bind, hdrop]
      unfold upToNulUnit
      have hnext := ih (i + 2) (by omega) (by omega) (by omega)
      have hgoal : (Res.ok (i + 2 + (upToNulUnit (data.drop (i + 2))).length) : Res Nat) =
          .ok (i + (x :: y :: upToNulUnit (data.drop (i + 2))).length) := by
        simp only [List.length_cons, Res.ok.injEq]; omega
      by_cases h0 : x = 0
      · rw [if_pos (hz.2 h0), hr', Res.ok_bind]
        by_cases h1 : y = 0
        · rw [if_pos (hz'.2 h1), if_pos ⟨h0, h1⟩]; rfl
        · rw [if_neg (fun h => h1 (hz'.1 h)), if_neg (fun h => h1 h.2), hnext, hgoal]
      · rw [if_neg (fun h => h0 (hz.1 h)), if_neg (fun h => h0 h.1), hnext, hgoal]
    · rw [if_neg hlt]
      rw [List.drop_eq_nil_of_le (by omega)]
      rfl

theorem upToNulUnit_prefix : ∀ data : Bytes,
    data.take (upToNulUnit data).length = upToNulUnit data
  | [] => rfl
  | [a] => rfl
  | a :: b :: r => by
    unfold upToNulUnit
    split
    · next h => obtain ⟨rfl, rfl⟩ := h; simp
    · simp [upToNulUnit_prefix r]

theorem upToNulUnit_pos {data : Bytes} (h : 0 < data.length) :
    0 < (upToNulUnit data).length := by
  match data with
  | [] => simp at h
  | [a] => simp [upToNulUnit]
  | a :: b :: r => unfold upToNulUnit; split <;> simp

/-! ### Values -/

/-- The data that is kept of the data of a value. -/
def kept (type : Nat) (b : Bytes) : Bytes :=
  if type = typeAscii then upToNul b else if type = typeUnicode then upToNulUnit b else b

theorem keepSize {type : Nat} {b : Bytes} (hb : 0 < b.length)
    (hev : type = typeUnicode → b.length % 2 = 0) :
    keptSize type b b.length = .ok (kept type b).length ∧
    0 < (kept type b).length ∧ rdBytes b 0 (kept type b).length = .ok (kept type b) := by
  unfold kept keptSize
  by_cases h1 : type = typeAscii
  · rw [if_pos h1, if_pos h1, asciiSize_eq b _ 0 (by omega) (by omega)]
    simp only [List.drop_zero, Nat.zero_add]
    refine ⟨trivial, upToNul_pos hb, ?_⟩
    have hp := upToNul_prefix b
    have hle : (upToNul b).length ≤ b.length := by
      have := congrArg List.length hp
      rw [List.length_take] at this
      omega
    unfold rdBytes
    rw [if_pos (by omega), List.drop_zero, hp]
  · rw [if_neg h1, if_neg h1]
    by_cases h2 : type = typeUnicode
    · rw [if_pos h2, if_pos h2, unicodeSize_eq b _ 0 (by omega) (by omega) (by
        have := hev h2; omega)]
      simp only [List.drop_zero, Nat.zero_add]
      refine ⟨trivial, upToNulUnit_pos hb, ?_⟩
      have hp := upToNulUnit_prefix b
      have hle : (upToNulUnit b).length ≤ b.length := by
        have := congrArg List.length hp
        rw [List.length_take] at this
        omega
      unfold rdBytes
      rw [if_pos (by omega), List.drop_zero, hp]
    · rw [if_neg h2, if_neg h2]
      refine ⟨rfl, hb, ?_⟩
      unfold rdBytes
      rw [if_pos (by omega), List.drop_zero, List.take_length]

theorem dataSize_even {size : Nat} : dataSize typeUnicode size % 2 = 0 := by
  unfold dataSize
  rw [if_pos rfl]
  omega

theorem readValueData_eq {f : FileCtx} (h : WellFormedCtx f) {d : DirEntry} (hd : StreamOk f d)
    {e : Endian} (type size pos : Nat) {v : FValue} {c : Int} :
    readValueData f d e type size pos = (.ok v, c) ↔
      (size = 0 ∧ v = ⟨valueEncoding f.io e type, none⟩ ∧ c = pos) ∨
      (0 < size ∧ 0 < dataSize type size ∧ dataSize type size ≤ MAX_ALLOC ∧
        ∃ b, streamContent f d pos (dataSize type size) = some b ∧
          v = ⟨valueEncoding f.io e type, some (kept type b)⟩ ∧
          c = ((pos + dataSize type size : Nat) : Int)) := by
  unfold readValueData
  by_cases h0 : size = 0
  · rw [if_pos h0, reader_pure_ok]
    constructor
    · rintro ⟨rfl, rfl⟩; exact .inl ⟨h0, rfl, rfl⟩
    · rintro (⟨-, rfl, rfl⟩ | ⟨hp, -⟩)
      · exact ⟨rfl, rfl⟩
      · omega
  · rw [if_neg h0]
    show (if dataSize type size = 0 ∨ dataSize type size > MAX_ALLOC then Reader.fail
      else _ : Reader FValue) pos = _ ↔ _
    by_cases h1 : dataSize type size = 0 ∨ dataSize type size > MAX_ALLOC
    · rw [if_pos h1, reader_fail_ok]
      constructor
      · exact False.elim
      · rintro (⟨hs, -⟩ | ⟨-, ha, hb, -⟩)
        · exact h0 hs
        · omega
    · rw [if_neg h1, reader_bind_ok]
      have hbind : ∀ b, streamContent f d pos (dataSize type size) = some b → ∀ cur : Int,
          ((do
            let size ← Reader.of (keptSize type b (dataSize type size))
            if size > 0 then do
              let data ← Reader.of (rdBytes b 0 size)
              pure ⟨valueEncoding f.io e type, some data⟩
            else pure ⟨valueEncoding f.io e type, none⟩ : Reader FValue)) cur =
          (.ok ⟨valueEncoding f.io e type, some (kept type b)⟩, cur) := by
        intro b hb cur
        have hl := streamContent_length hb
        obtain ⟨k1, k2, k3⟩ := keepSize (type := type) (b := b) (by omega) (by
          intro ht; rw [hl, ht]; exact dataSize_even)
        rw [← hl, k1]
        rw [reader_bind_ok]
        refine ⟨_, _, reader_of_ok.2 ⟨rfl, rfl⟩, ?_⟩
        rw [if_pos k2, reader_bind_ok]
        exact ⟨_, _, reader_of_ok.2 ⟨k3, rfl⟩, reader_pure_ok.2 ⟨rfl, rfl⟩⟩
      constructor
      · rintro ⟨b, c', hb, hk⟩
        rw [readExactly_ok h hd] at hb
        obtain ⟨hb, rfl⟩ := hb
        rw [show _ = _ from hbind b hb _] at hk
        cases hk
        exact .inr ⟨by omega, by omega, by omega, b, hb, rfl, rfl⟩
      · rintro (⟨hs, -⟩ | ⟨-, -, -, b, hb, rfl, rfl⟩)
        · exact absurd hs h0
        · exact ⟨b, _, (readExactly_ok h hd _ _).2 ⟨hb, rfl⟩, hbind b hb _⟩

theorem readValueData_defined {f : FileCtx} (h : WellFormedCtx f) {d : DirEntry}
    (hd : StreamOk f d) {e : Endian} (type size pos : Nat) :
    (readValueData f d e type size pos).1.Defined := by
  unfold readValueData
  by_cases h0 : size = 0
  · rw [if_pos h0]; trivial
  · rw [if_neg h0]
    show ((if dataSize type size = 0 ∨ dataSize type size > MAX_ALLOC then Reader.fail
      else _ : Reader FValue) pos).1.Defined
    by_cases h1 : dataSize type size = 0 ∨ dataSize type size > MAX_ALLOC
    · rw [if_pos h1]; trivial
    · rw [if_neg h1]
      have hle : dataSize type size ≤ 134217728 := by
        simp only [MAX_ALLOC] at h1; omega
      apply reader_bind_defined (readExactly_defined h hd _ _ (by omega))
      intro b c hb
      rw [readExactly_ok h hd] at hb
      obtain ⟨hb, rfl⟩ := hb
      have hl := streamContent_length hb
      obtain ⟨k1, k2, k3⟩ := keepSize (type := type) (b := b) (by omega) (by
        intro ht; rw [hl, ht]; exact dataSize_even)
      rw [← hl, k1]
      apply reader_bind_defined
      · trivial
      · intro s c hs
        rw [reader_of_ok] at hs
        obtain ⟨hs, rfl⟩ := hs
        cases hs
        rw [if_pos k2]
        apply reader_bind_defined
        · rw [k3]; trivial
        · intro _ _ _; trivial

/-! ### Multi-values -/

theorem word_lt {c : Content} {e : Endian} {pos v : Nat} (h : c.word e pos = some v) :
    v < 2 ^ 32 := by
  obtain ⟨b, -, rfl⟩ := word_some.1 h
  exact u32At_lt e b 0

theorem word_within {f : FileCtx} (h : WellFormedCtx f) {d : DirEntry} (hd : StreamOk f d)
    {e : Endian} {pos v : Nat} (hw : (streamContent f d).word e pos = some v) :
    pos + 4 ≤ d.size := by
  obtain ⟨b, hb, -⟩ := word_some.1 hw
  exact streamContent_within h hd (by omega) (by omega) hb

theorem multiLoop_sound {f : FileCtx} (h : WellFormedCtx f) {d : DirEntry} (hd : StreamOk f d)
    {e : Endian} : ∀ (n pos : Nat) (c : Int), multiLoop f d e n pos pos = (.ok (), c) →
      ValuesAt (streamContent f d) e pos n ∧ ∃ q : Nat, c = q := by
  intro n
  induction n with
  | zero =>
    intro pos c hr
    unfold multiLoop at hr
    rw [reader_pure_ok] at hr
    exact ⟨.nil, pos, hr.2⟩
  | succ n ih =>
    intro pos c hr
    unfold multiLoop at hr
    split at hr
    · rw [reader_fail_ok] at hr; exact hr.elim
    · have hsz := hd.fits.size
      rw [readWord_ok h hd] at hr
      obtain ⟨size, hw, hr⟩ := hr
      have hin := word_within h hd hw
      split at hr
      · rw [reader_fail_ok] at hr; exact hr.elim
      · split at hr
        · rw [reader_fail_ok] at hr; exact hr.elim
        · next hs =>
          simp only [MAX_ALLOC] at hs
          rw [reader_bind_ok] at hr
          obtain ⟨b, c', hb, hr⟩ := hr
          rw [readExactly_ok h hd] at hb
          obtain ⟨hb, rfl⟩ := hb
          have hin' := streamContent_within h hd (by omega) (by omega) hb
          have hm : ((pos + 4) % 2 ^ 32 + size) % 2 ^ 32 = pos + 4 + size := by omega
          rw [hm] at hr
          obtain ⟨hv, hq⟩ := ih _ _ hr
          exact ⟨.cons hw (by omega) (by unfold maxValueSize; omega) hb hv, hq⟩

theorem multiLoop_complete {f : FileCtx} (h : WellFormedCtx f) {d : DirEntry}
    (hd : StreamOk f d) {e : Endian} (hmax : d.size < 2 ^ 32 - 1) {pos n : Nat}
    (hv : ValuesAt (streamContent f d) e pos n) :
    ∃ q : Nat, multiLoop f d e n pos pos = (.ok (), (q : Int)) := by
  induction hv with
  | nil => exact ⟨_, rfl⟩
  | @cons pos n size b hw h0 hs hb _ ih =>
    obtain ⟨q, hq⟩ := ih
    refine ⟨q, ?_⟩
    have hin := word_within h hd hw
    unfold maxValueSize at hs
    have hin' := streamContent_within h hd (by omega) h0 hb
    unfold multiLoop
    rw [if_neg (by simp only [UINT32_MAX]; omega), readWord_ok h hd]
    refine ⟨size, hw, ?_⟩
    rw [if_neg (by simp only [UINT32_MAX]; omega), if_neg (by simp only [MAX_ALLOC]; omega)]
    rw [reader_bind_ok]
    refine ⟨b, _, (readExactly_ok h hd _ _).2 ⟨hb, rfl⟩, ?_⟩
    have hm : ((pos + 4) % 2 ^ 32 + size) % 2 ^ 32 = pos + 4 + size := by omega
    rw [hm]
    exact hq

theorem multiLoop_defined {f : FileCtx} (h : WellFormedCtx f) {d : DirEntry} (hd : StreamOk f d)
    {e : Endian} : ∀ (n off pos : Nat), (multiLoop f d e n off pos).1.Defined := by
  intro n
  induction n with
  | zero => intro off pos; trivial
  | succ n ih =>
    intro off pos
    unfold multiLoop
    split
    · trivial
    · apply readWord_defined h hd
      intro v hv
      split
      · trivial
      · split
        · trivial
        · apply reader_bind_defined (readExactly_defined h hd _ _ (by omega))
          intro b c hb
          rw [readExactly_ok h hd] at hb
          obtain ⟨hb, rfl⟩ := hb
          exact ih _ _

/-! ### The table of types -/

theorem classify_fixed {t n : Nat} : classify t = .fixed n ↔ (t, n) ∈ fixedTypes := by
  unfold classify fixedTypes
  split <;> simp_all [eq_comm]

theorem classify_variable {t : Nat} :
    classify t = .variable ↔ (t = 0x1e ∨ t = 0x1f ∨ t ∈ sizedTypes) := by
  unfold classify sizedTypes
  split <;> simp_all

theorem classify_multi {t : Nat} : classify t = .multi ↔ t ∈ multiTypes := by
  unfold classify multiTypes
  split <;> simp_all

theorem classify_undefined {t : Nat} :
    classify t = .undefined ↔ (t ∉ fixedTypes.map (·.1) ∧ t ≠ 0x1e ∧ t ≠ 0x1f ∧
      t ∉ sizedTypes ∧ t ∉ multiTypes) := by
  unfold classify sizedTypes multiTypes fixedTypes
  split <;> simp_all

theorem fixedTypes_sizes {t n : Nat} (h : (t, n) ∈ fixedTypes) : 0 < n ∧ n ≤ 16 := by
  unfold fixedTypes at h
  simp only [List.mem_cons, Prod.mk.injEq, List.not_mem_nil, or_false] at h
  omega

theorem fixedTypes_strings {t n : Nat} (h : (t, n) ∈ fixedTypes) : t ≠ 0x1e ∧ t ≠ 0x1f := by
  unfold fixedTypes at h
  simp only [List.mem_cons, Prod.mk.injEq, List.not_mem_nil, or_false] at h
  omega

theorem sizedTypes_strings {t : Nat} (h : t ∈ sizedTypes) : t ≠ 0x1e ∧ t ≠ 0x1f := by
  unfold sizedTypes at h
  simp only [List.mem_cons, List.not_mem_nil, or_false] at h
  omega

/-! ### Reading a value -/

/-- A 16-bit string at a position does not declare so many units that the number of bytes does not
  fit 32 bits. -/
def UnitsFit (c : Content) (e : Endian) (pos : Nat) : Prop :=
  c.word e pos = some 0x1f → ∀ k, c.word e (pos + 4) = some k → k < 2 ^ 31

/-- The data behind a libfvalue value. -/
def dataOf : Option FValue → Option Bytes
  | some v => v.data
  | none => none

/-- The encoding of a libfvalue value is the one of its type. -/
def EncodedAs (io : IoHandle) (e : Endian) (t : Nat) : Option FValue → Prop
  | some v => v.encoding = valueEncoding io e t
  | none => True

theorem kept_other {t : Nat} (h1 : t ≠ 0x1e) (h2 : t ≠ 0x1f) (b : Bytes) : kept t b = b := by
  unfold kept
  rw [if_neg h1, if_neg h2]

theorem dataSize_other {t : Nat} (h2 : t ≠ 0x1f) (n : Nat) : dataSize t n = n := by
  unfold dataSize
  rw [if_neg h2]

theorem readValue_sound {f : FileCtx} (h : WellFormedCtx f) {d : DirEntry} (hd : StreamOk f d)
    {e : Endian} {pos cur t : Nat} {v : Option FValue} {c : Int} (hpos : pos < 2 ^ 32)
    (hr : readValue f d e pos cur = (.ok (t, v), c)) :
    (UnitsFit (streamContent f d) e pos →
      ValueAt (streamContent f d) e pos t (dataOf v)) ∧ EncodedAs f.io e t v ∧
      (t ≠ 0x1f → UnitsFit (streamContent f d) e pos) ∧ ∃ q : Nat, c = q := by
  unfold readValue at hr
  split at hr
  · rw [reader_fail_ok] at hr; exact hr.elim
  · rw [reader_bind_ok] at hr
    obtain ⟨u, c', hs, hr⟩ := hr
    rw [seekTo_ok hd.isStream _ _ (by omega)] at hs
    subst hs
    rw [readWord_ok h hd] at hr
    obtain ⟨type, hw, hr⟩ := hr
    have hsz := hd.fits.size
    have hin := word_within h hd hw
    have hfit : type ≠ 0x1f → UnitsFit (streamContent f d) e pos := by
      intro hne hw'
      rw [hw] at hw'
      cases hw'
      exact absurd rfl hne
    cases hcl : classify type with
    | multi =>
      rw [hcl] at hr
      simp only [] at hr
      split at hr
      · rw [reader_fail_ok] at hr; exact hr.elim
      · rw [readWord_ok h hd] at hr
        obtain ⟨n, hn, hr⟩ := hr
        have hin' := word_within h hd hn
        rw [reader_bind_ok] at hr
        obtain ⟨u, c', hm, hr⟩ := hr
        rw [reader_pure_ok] at hr
        obtain ⟨he, rfl⟩ := hr
        cases he
        have hmod : ((pos + 4) % 2 ^ 32 + 4) % 2 ^ 32 = pos + 4 + 4 := by omega
        rw [hmod] at hm
        obtain ⟨hv, hq⟩ := multiLoop_sound h hd _ _ _ hm
        exact ⟨fun _ => .multi hw (classify_multi.1 hcl) hn hv, trivial, hfit, hq⟩
    | undefined =>
      rw [hcl] at hr
      simp only [] at hr
      rw [reader_pure_ok] at hr
      obtain ⟨he, rfl⟩ := hr
      cases he
      obtain ⟨h1, h2, h3, h4, h5⟩ := classify_undefined.1 hcl
      exact ⟨fun _ => .other hw h1 h2 h3 h4 h5, trivial, hfit, _, rfl⟩
    | fixed n =>
      rw [hcl] at hr
      simp only [] at hr
      have hmem := classify_fixed.1 hcl
      obtain ⟨hn0, hn16⟩ := fixedTypes_sizes hmem
      obtain ⟨hs1, hs2⟩ := fixedTypes_strings hmem
      rw [reader_bind_ok] at hr
      obtain ⟨w, c', hv, hr⟩ := hr
      rw [reader_pure_ok] at hr
      obtain ⟨he, rfl⟩ := hr
      cases he
      rw [readValueData_eq h hd] at hv
      rcases hv with ⟨hz, -⟩ | ⟨-, -, -, b, hb, rfl, rfl⟩
      · omega
      · rw [dataSize_other hs2] at hb
        refine ⟨fun hu => ?_, rfl, hfit, _, rfl⟩
        show ValueAt _ _ _ _ (some (kept t b))
        rw [kept_other hs1 hs2]
        exact .fixed hw hmem hb
    | «variable» =>
      rw [hcl] at hr
      simp only [] at hr
      have hmem := classify_variable.1 hcl
      rw [readWord_ok h hd] at hr
      obtain ⟨k, hk, hr⟩ := hr
      rw [reader_bind_ok] at hr
      obtain ⟨w, c', hv, hr⟩ := hr
      rw [reader_pure_ok] at hr
      obtain ⟨he, rfl⟩ := hr
      cases he
      rw [readValueData_eq h hd] at hv
      rcases hv with ⟨rfl, rfl, rfl⟩ | ⟨hk0, h0, hmax, b, hb, rfl, rfl⟩
      · exact ⟨fun _ => .absent hw hmem hk, rfl, hfit, _, rfl⟩
      · refine ⟨fun hu => ?_, rfl, hfit, _, rfl⟩
        show ValueAt _ _ _ _ (some (kept t b))
        simp only [MAX_ALLOC] at hmax
        rcases hmem with rfl | rfl | hmem
        · rw [dataSize_other (by decide)] at hb hmax
          exact .ascii hw hk hk0 (by unfold maxValueSize; omega) hb
        · have hlt := hu hw k hk
          have hds : dataSize 0x1f k = 2 * k := by
            unfold dataSize
            rw [if_pos rfl]
            omega
          rw [hds] at hb hmax
          exact .unicode hw hk hk0 (by unfold maxValueSize; omega) hb
        · obtain ⟨hs1, hs2⟩ := sizedTypes_strings hmem
          rw [kept_other hs1 hs2]
          rw [dataSize_other hs2] at hb hmax
          exact .sized hw hmem hk hk0 (by unfold maxValueSize; omega) hb

theorem readValue_complete {f : FileCtx} (h : WellFormedCtx f) {d : DirEntry} (hd : StreamOk f d)
    {e : Endian} {pos t : Nat} {data : Option Bytes} (hmax : d.size < 2 ^ 32 - 1)
    (hv : ValueAt (streamContent f d) e pos t data) (cur : Nat) :
    ∃ (v : Option FValue) (q : Nat), readValue f d e pos cur = (.ok (t, v), (q : Int)) ∧
      dataOf v = data := by
  have key : ∀ (hw : (streamContent f d).word e pos = some t) {r : Res (Nat × Option FValue) × Int},
      (∃ x c, r = (.ok x, c) ∧
      ((match classify t with
        | .multi =>
          if (pos + 4) % 2 ^ 32 ≥ UINT32_MAX - 4 then .fail
          else do
            let b ← readExactly f d 4
            let n ← Reader.of (rd32 e b 0)
            multiLoop f d e n (((pos + 4) % 2 ^ 32 + 4) % 2 ^ 32)
            pure (t, none)
        | .undefined => pure (t, none)
        | .fixed size => do
          let v ← readValueData f d e t size
          pure (t, some v)
        | .variable => do
          let b ← readExactly f d 4
          let size ← Reader.of (rd32 e b 0)
          let v ← readValueData f d e t size
          pure (t, some v)) : Reader (Nat × Option FValue)) ((pos + 4 : Nat) : Int) = r) →
      readValue f d e pos cur = r := by
    rintro hw r ⟨x, c, rfl, hx⟩
    have hin := word_within h hd hw
    unfold readValue
    rw [if_neg (by simp only [UINT32_MAX]; omega), reader_bind_ok]
    refine ⟨(), _, (seekTo_ok hd.isStream _ _ (by omega)).2 rfl, ?_⟩
    rw [readWord_ok h hd]
    exact ⟨t, hw, hx⟩
  cases hv with
  | @fixed _ n b hw ht hb =>
    have hin := word_within h hd hw
    obtain ⟨hn0, hn16⟩ := fixedTypes_sizes ht
    obtain ⟨hs1, hs2⟩ := fixedTypes_strings ht
    refine ⟨some ⟨valueEncoding f.io e t, some b⟩, pos + 4 + n, ?_, rfl⟩
    apply key hw
    refine ⟨_, _, rfl, ?_⟩
    rw [classify_fixed.2 ht]
    simp only []
    rw [reader_bind_ok]
    refine ⟨_, _, ?_, reader_pure_ok.2 ⟨rfl, rfl⟩⟩
    rw [readValueData_eq h hd]
    rw [dataSize_other hs2]
    refine .inr ⟨hn0, hn0, by simp only [MAX_ALLOC]; omega, b, hb, ?_, rfl⟩
    rw [kept_other hs1 hs2]
  | absent hw ht hk =>
    have hin := word_within h hd hw
    refine ⟨some ⟨valueEncoding f.io e t, none⟩, pos + 4 + 4, ?_, rfl⟩
    apply key hw
    refine ⟨_, _, rfl, ?_⟩
    rw [classify_variable.2 ht]
    simp only []
    rw [readWord_ok h hd]
    refine ⟨0, hk, ?_⟩
    rw [reader_bind_ok]
    refine ⟨_, _, ?_, reader_pure_ok.2 ⟨rfl, rfl⟩⟩
    rw [readValueData_eq h hd]
    exact .inl ⟨rfl, rfl, rfl⟩
  | @ascii k b hw hk hk0 hkm hb =>
    unfold maxValueSize at hkm
    refine ⟨some ⟨valueEncoding f.io e 0x1e, some (upToNul b)⟩, pos + 8 + k, ?_, rfl⟩
    apply key hw
    refine ⟨_, _, rfl, ?_⟩
    rw [classify_variable.2 (.inl rfl)]
    simp only []
    rw [readWord_ok h hd]
    refine ⟨k, hk, ?_⟩
    rw [reader_bind_ok]
    refine ⟨_, _, ?_, reader_pure_ok.2 ⟨rfl, rfl⟩⟩
    rw [readValueData_eq h hd, dataSize_other (by decide)]
    exact .inr ⟨hk0, hk0, by simp only [MAX_ALLOC]; omega, b, hb, rfl, rfl⟩
  | @unicode k b hw hk hk0 hkm hb =>
    unfold maxValueSize at hkm
    refine ⟨some ⟨valueEncoding f.io e 0x1f, some (upToNulUnit b)⟩, pos + 8 + 2 * k, ?_, rfl⟩
    apply key hw
    refine ⟨_, _, rfl, ?_⟩
    rw [classify_variable.2 (.inr (.inl rfl))]
    simp only []
    rw [readWord_ok h hd]
    refine ⟨k, hk, ?_⟩
    rw [reader_bind_ok]
    refine ⟨_, _, ?_, reader_pure_ok.2 ⟨rfl, rfl⟩⟩
    have hds : dataSize 0x1f k = 2 * k := by
      unfold dataSize
      rw [if_pos rfl]
      omega
    rw [readValueData_eq h hd, hds]
    exact .inr ⟨hk0, by omega, by simp only [MAX_ALLOC]; omega, b, hb, rfl, rfl⟩
  | @sized _ k b hw ht hk hk0 hkm hb =>
    unfold maxValueSize at hkm
    obtain ⟨hs1, hs2⟩ := sizedTypes_strings ht
    refine ⟨some ⟨valueEncoding f.io e t, some b⟩, pos + 8 + k, ?_, rfl⟩
    apply key hw
    refine ⟨_, _, rfl, ?_⟩
    rw [classify_variable.2 (.inr (.inr ht))]
    simp only []
    rw [readWord_ok h hd]
    refine ⟨k, hk, ?_⟩
    rw [reader_bind_ok]
    refine ⟨_, _, ?_, reader_pure_ok.2 ⟨rfl, rfl⟩⟩
    rw [readValueData_eq h hd, dataSize_other hs2]
    refine .inr ⟨hk0, hk0, by simp only [MAX_ALLOC]; omega, b, hb, ?_, rfl⟩
    rw [kept_other hs1 hs2]
  | @multi _ n hw ht hn hvs =>
    have hin := word_within h hd hn
    obtain ⟨q, hq⟩ := multiLoop_complete h hd hmax hvs
    refine ⟨none, q, ?_, rfl⟩
    apply key hw
    refine ⟨_, _, rfl, ?_⟩
    rw [classify_multi.2 ht]
    simp only []
    rw [if_neg (by simp only [UINT32_MAX]; omega), readWord_ok h hd]
    refine ⟨n, hn, ?_⟩
    rw [reader_bind_ok]
    refine ⟨(), q, ?_, reader_pure_ok.2 ⟨rfl, rfl⟩⟩
    have hmod : ((pos + 4) % 2 ^ 32 + 4) % 2 ^ 32 = pos + 4 + 4 := by omega
    rw [hmod]
    exact hq
  | other hw h1 h2 h3 h4 h5 =>
    refine ⟨none, pos + 4, ?_, rfl⟩
    apply key hw
    refine ⟨_, _, rfl, ?_⟩
    rw [classify_undefined.2 ⟨h1, h2, h3, h4, h5⟩]
    rfl

theorem readValue_defined {f : FileCtx} (h : WellFormedCtx f) {d : DirEntry} (hd : StreamOk f d)
    {e : Endian} (pos cur : Nat) (hpos : pos < 2 ^ 32) : (readValue f d e pos cur).1.Defined := by
  unfold readValue
  split
  · trivial
  · apply reader_bind_defined (seekTo_defined _ _ (by omega))
    intro u c hs
    rw [seekTo_ok hd.isStream _ _ (by omega)] at hs
    subst hs
    apply readWord_defined h hd
    intro t _
    cases hcl : classify t with
    | multi =>
      simp only []
      split
      · trivial
      · apply readWord_defined h hd
        intro n _
        apply reader_bind_defined (multiLoop_defined h hd _ _ _)
        intro _ _ _; trivial
    | undefined => trivial
    | fixed n =>
      simp only []
      apply reader_bind_defined (readValueData_defined h hd _ _ _)
      intro _ _ _; trivial
    | «variable» =>
      simp only []
      apply readWord_defined h hd
      intro n _
      apply reader_bind_defined (readValueData_defined h hd _ _ _)
      intro _ _ _; trivial

/-! ### Reading the properties of a section -/

theorem readValueEntry_ok {f : FileCtx} (h : WellFormedCtx f) {d : DirEntry} (hd : StreamOk f d)
    {e : Endian} (pos : Nat) {x : Nat × Nat} {c : Int} :
    readValueEntry f d e pos = (.ok x, c) ↔
      ∃ b, streamContent f d pos 8 = some b ∧ x = (u32At e b 0, u32At e b 4) ∧
        c = ((pos + 8 : Nat) : Int) := by
  unfold readValueEntry
  rw [reader_bind_ok]
  constructor
  · rintro ⟨b, c', hb, hk⟩
    rw [readExactly_ok h hd] at hb
    obtain ⟨hb, rfl⟩ := hb
    have hl := streamContent_length hb
    rw [reader_bind_ok] at hk
    obtain ⟨v, c', hv, hk⟩ := hk
    rw [reader_of_ok, rd32_ok e (by omega)] at hv
    obtain ⟨hv, rfl⟩ := hv
    rw [reader_bind_ok] at hk
    obtain ⟨w, c', hw, hk⟩ := hk
    rw [reader_of_ok, rd32_ok e (by omega)] at hw
    obtain ⟨hw, rfl⟩ := hw
    rw [reader_pure_ok] at hk
    obtain ⟨rfl, rfl⟩ := hk
    cases hv; cases hw
    exact ⟨b, hb, rfl, rfl⟩
  · rintro ⟨b, hb, rfl, rfl⟩
    have hl := streamContent_length hb
    refine ⟨b, _, (readExactly_ok h hd pos 8).2 ⟨hb, rfl⟩, ?_⟩
    rw [reader_bind_ok]
    refine ⟨_, _, reader_of_ok.2 ⟨rd32_ok e (by omega), rfl⟩, ?_⟩
    rw [reader_bind_ok]
    exact ⟨_, _, reader_of_ok.2 ⟨rd32_ok e (by omega), rfl⟩, reader_pure_ok.2 ⟨rfl, rfl⟩⟩

theorem readValueEntry_defined {f : FileCtx} (h : WellFormedCtx f) {d : DirEntry}
    (hd : StreamOk f d) {e : Endian} (pos : Nat) : (readValueEntry f d e pos).1.Defined := by
  unfold readValueEntry
  apply reader_bind_defined (readExactly_defined h hd _ _ (by omega))
  intro b c hb
  rw [readExactly_ok h hd] at hb
  obtain ⟨hb, rfl⟩ := hb
  have hl := streamContent_length hb
  apply reader_bind_defined
  · rw [rd32_ok e (by omega)]; trivial
  intro _ _ _
  apply reader_bind_defined
  · rw [rd32_ok e (by omega)]; trivial
  intro _ _ _; trivial

/-- What is known of a property that was read, without any assumption on offsets. -/
def PropRead (f : FileCtx) (d : DirEntry) (e : Endian) (sec pos : Nat) (p : PropValue) : Prop :=
  ∃ b, streamContent f d pos 8 = some b ∧ u32At e b 0 = p.identifier ∧ 8 < u32At e b 4 ∧
    (UnitsFit (streamContent f d) e ((sec + u32At e b 4) % 2 ^ 32) →
      ValueAt (streamContent f d) e ((sec + u32At e b 4) % 2 ^ 32) p.type (dataOf p.value)) ∧
    EncodedAs f.io e p.type p.value ∧
    (p.type ≠ 0x1f → UnitsFit (streamContent f d) e ((sec + u32At e b 4) % 2 ^ 32))

theorem propsLoop_sound {f : FileCtx} (h : WellFormedCtx f) {d : DirEntry} (hd : StreamOk f d)
    {e : Endian} {sec : Nat} : ∀ (n pos cur : Nat) (l : List PropValue) (c : Int),
      pos < 2 ^ 33 → propsLoop f d e sec n pos cur = (.ok l, c) →
      l.length = n ∧ (∀ j p, l[j]? = some p → PropRead f d e sec (pos + 8 * j) p) ∧
      ∃ q : Nat, c = q := by
  intro n
  induction n with
  | zero =>
    intro pos cur l c _ hr
    unfold propsLoop at hr
    rw [reader_pure_ok] at hr
    obtain ⟨rfl, rfl⟩ := hr
    refine ⟨rfl, ?_, _, rfl⟩
    intro j p hj
    simp at hj
  | succ n ih =>
    intro pos cur l c hpos hr
    have hsz := hd.fits.size
    unfold propsLoop at hr
    rw [reader_bind_ok] at hr
    obtain ⟨u, c', hs, hr⟩ := hr
    rw [seekTo_ok hd.isStream _ _ (by omega)] at hs
    subst hs
    rw [reader_bind_ok] at hr
    obtain ⟨⟨id, off⟩, c', he, hr⟩ := hr
    rw [readValueEntry_ok h hd] at he
    obtain ⟨b, hb, hx, rfl⟩ := he
    cases hx
    have hin := streamContent_within h hd (by omega) (by omega) hb
    simp only [] at hr
    split at hr
    · rw [reader_fail_ok] at hr; exact hr.elim
    · next hoff =>
      rw [reader_bind_ok] at hr
      obtain ⟨entry, c', ht, hr⟩ := hr
      rw [tell_ok hd.isStream] at ht
      obtain ⟨rfl, rfl⟩ := ht
      rw [reader_bind_ok] at hr
      obtain ⟨⟨t, v⟩, c', hv, hr⟩ := hr
      obtain ⟨v1, v2, v3, q, rfl⟩ := readValue_sound h hd (by omega) hv
      rw [reader_bind_ok] at hr
      obtain ⟨rest, c', hrest, hr⟩ := hr
      rw [reader_pure_ok] at hr
      obtain ⟨rfl, rfl⟩ := hr
      obtain ⟨r1, r2, r3⟩ := ih (pos + 8) q rest _ (by omega) hrest
      refine ⟨by simp [r1], ?_, r3⟩
      intro j p hj
      cases j with
      | zero =>
        simp only [List.getElem?_cons_zero, Option.some.injEq] at hj
        subst hj
        exact ⟨b, hb, rfl, by omega, v1, v2, v3⟩
      | succ j =>
        rw [List.getElem?_cons_succ] at hj
        have := r2 j p hj
        rw [show pos + 8 * (j + 1) = pos + 8 + 8 * j by omega]
        exact this

theorem seen_data (p : PropValue) : (seenProperty p).data = dataOf p.value := by
  unfold seenProperty PropValue.data dataOf
  rcases p with ⟨id, t, v⟩
  rcases v with _ | ⟨enc, _ | b⟩ <;> rfl

theorem propsLoop_complete {f : FileCtx} (h : WellFormedCtx f) {d : DirEntry} (hd : StreamOk f d)
    {e : Endian} {sec : Nat} (hmax : d.size < 2 ^ 32 - 1) :
    ∀ (ps : List Property) (pos cur : Nat),
      (∀ j p, ps[j]? = some p → PropertyAt (streamContent f d) e sec (pos + 8 * j) p) →
      ∃ (l : List PropValue) (q : Nat),
        propsLoop f d e sec ps.length pos cur = (.ok l, (q : Int)) ∧ l.map seenProperty = ps := by
  intro ps
  induction ps with
  | nil => intro pos cur _; exact ⟨[], cur, rfl, rfl⟩
  | cons p ps ih =>
    intro pos cur hp
    obtain ⟨b, hb, hid, hoff, hv⟩ := hp 0 p rfl
    have hin := streamContent_within h hd (by omega) (by omega) hb
    obtain ⟨v, q, hrv, hdv⟩ := readValue_complete h hd hmax hv ((pos + 8 * 0 + 8 : Nat))
    obtain ⟨l, q', hl, hmap⟩ := ih (pos + 8) q (by
      intro j p' hj
      have := hp (j + 1) p' (by rw [List.getElem?_cons_succ]; exact hj)
      rw [show pos + 8 * (j + 1) = pos + 8 + 8 * j by omega] at this
      exact this)
    have hpin : sec + u32At e b 4 + 4 ≤ d.size := by
      generalize p.data = dat at hv
      generalize p.type = typ at hv
      cases hv with
      | fixed hw => exact word_within h hd hw
      | absent hw => exact word_within h hd hw
      | ascii hw => exact word_within h hd hw
      | unicode hw => exact word_within h hd hw
      | sized hw => exact word_within h hd hw
      | multi hw => exact word_within h hd hw
      | other hw => exact word_within h hd hw
    refine ⟨⟨p.id, p.type, v⟩ :: l, q', ?_, ?_⟩
    · show propsLoop f d e sec (ps.length + 1) pos cur = _
      unfold propsLoop
      rw [reader_bind_ok]
      refine ⟨(), _, (seekTo_ok hd.isStream _ _ (by omega)).2 rfl, ?_⟩
      rw [reader_bind_ok]
      refine ⟨_, _, (readValueEntry_ok h hd _).2 ⟨b, hb, rfl, rfl⟩, ?_⟩
      simp only []
      rw [if_neg (by omega), reader_bind_ok]
      refine ⟨_, _, (tell_ok hd.isStream).2 ⟨rfl, rfl⟩, ?_⟩
      rw [reader_bind_ok, Nat.mod_eq_of_lt (by omega : sec + u32At e b 4 < 2 ^ 32)]
      refine ⟨_, _, hrv, ?_⟩
      simp only []
      rw [reader_bind_ok]
      refine ⟨_, _, hl, ?_⟩
      rw [hid]
      exact reader_pure_ok.2 ⟨rfl, rfl⟩
    · rw [List.map_cons, hmap]
      congr 1
      have hsd := seen_data ⟨p.id, p.type, v⟩
      rw [hdv] at hsd
      cases p
      simp only [seenProperty, Property.mk.injEq, true_and]
      exact hsd

theorem propsLoop_defined {f : FileCtx} (h : WellFormedCtx f) {d : DirEntry} (hd : StreamOk f d)
    {e : Endian} {sec : Nat} : ∀ (n pos cur : Nat), pos < 2 ^ 33 →
      (propsLoop f d e sec n pos cur).1.Defined := by
  intro n
  induction n with
  | zero => intro pos cur _; trivial
  | succ n ih =>
    intro pos cur hpos
    have hsz := hd.fits.size
    unfold propsLoop
    apply reader_bind_defined (seekTo_defined _ _ (by omega))
    intro u c hs
    rw [seekTo_ok hd.isStream _ _ (by omega)] at hs
    subst hs
    apply reader_bind_defined (readValueEntry_defined h hd _)
    intro x c he
    rw [readValueEntry_ok h hd] at he
    obtain ⟨b, hb, rfl, rfl⟩ := he
    have hin := streamContent_within h hd (by omega) (by omega) hb
    simp only []
    split
    · trivial
    · apply reader_bind_defined
      · unfold tell streamGetOffset; rw [if_neg (by simp [hd.isStream])]; trivial
      intro entry c ht
      rw [tell_ok hd.isStream] at ht
      obtain ⟨rfl, rfl⟩ := ht
      apply reader_bind_defined (readValue_defined h hd _ _ (by omega))
      intro x c hv
      obtain ⟨-, -, -, q, rfl⟩ := readValue_sound h hd (by omega) hv
      apply reader_bind_defined (ih _ _ (by omega))
      intro _ _ _; trivial

/-! ### Sections -/

theorem readSection_sound {f : FileCtx} (h : WellFormedCtx f) {d : DirEntry} (hd : StreamOk f d)
    {e : Endian} {sec cur : Nat} (hsec : sec < 2 ^ 32) {l : List PropValue} {c : Int}
    (hr : readSection f d e sec cur = (.ok l, c)) :
    (∃ b, streamContent f d sec 8 = some b ∧ u32At e b 4 = l.length) ∧
    (∀ j p, l[j]? = some p → PropRead f d e sec (sec + 8 + 8 * j) p) ∧ ∃ q : Nat, c = q := by
  unfold readSection at hr
  rw [reader_bind_ok] at hr
  obtain ⟨u, c', hs, hr⟩ := hr
  rw [seekTo_ok hd.isStream _ _ (by omega)] at hs
  subst hs
  rw [reader_bind_ok] at hr
  obtain ⟨b, c', hb, hr⟩ := hr
  rw [readExactly_ok h hd] at hb
  obtain ⟨hb, rfl⟩ := hb
  rw [reader_bind_ok] at hr
  obtain ⟨n, c', hn, hr⟩ := hr
  have hl := streamContent_length hb
  rw [reader_of_ok, rd32_ok e (by omega)] at hn
  obtain ⟨hn, rfl⟩ := hn
  cases hn
  obtain ⟨h1, h2, h3⟩ := propsLoop_sound h hd _ (sec + 8) _ _ _ (by omega) hr
  exact ⟨⟨b, hb, h1.symm⟩, h2, h3⟩

theorem readSection_complete {f : FileCtx} (h : WellFormedCtx f) {d : DirEntry}
    (hd : StreamOk f d) {e : Endian} {sec : Nat} (hmax : d.size < 2 ^ 32 - 1)
    {ps : List Property} (hp : PropertiesAt (streamContent f d) e sec ps) (cur : Nat) :
    ∃ (l : List PropValue) (q : Nat), readSection f d e sec cur = (.ok l, (q : Int)) ∧
      l.map seenProperty = ps := by
  obtain ⟨b, hb, hn, hps⟩ := hp
  have hin := streamContent_within h hd (by omega) (by omega) hb
  have hl := streamContent_length hb
  obtain ⟨l, q, hr, hmap⟩ := propsLoop_complete h hd hmax ps (sec + 8) (sec + 8) hps
  refine ⟨l, q, ?_, hmap⟩
  unfold readSection
  rw [reader_bind_ok]
  refine ⟨(), _, (seekTo_ok hd.isStream _ _ (by omega)).2 rfl, ?_⟩
  rw [reader_bind_ok]
  refine ⟨_, _, (readExactly_ok h hd _ _).2 ⟨hb, rfl⟩, ?_⟩
  rw [reader_bind_ok]
  refine ⟨_, _, reader_of_ok.2 ⟨rd32_ok e (by omega), rfl⟩, ?_⟩
  rw [hn]
  exact hr

theorem readSection_defined {f : FileCtx} (h : WellFormedCtx f) {d : DirEntry}
    (hd : StreamOk f d) {e : Endian} {sec : Nat} (hsec : sec < 2 ^ 32) (cur : Nat) :
    (readSection f d e sec cur).1.Defined := by
  unfold readSection
  apply reader_bind_defined (seekTo_defined _ _ (by omega))
  intro u c hs
  rw [seekTo_ok hd.isStream _ _ (by omega)] at hs
  subst hs
  apply reader_bind_defined (readExactly_defined h hd _ _ (by omega))
  intro b c hb
  rw [readExactly_ok h hd] at hb
  obtain ⟨hb, rfl⟩ := hb
  have hl := streamContent_length hb
  apply reader_bind_defined
  · rw [rd32_ok e (by omega)]; trivial
  intro n c hn
  rw [reader_of_ok] at hn
  obtain ⟨-, rfl⟩ := hn
  exact propsLoop_defined h hd n (sec + 8) _ (by omega)

theorem readSectionEntry_ok {f : FileCtx} (h : WellFormedCtx f) {d : DirEntry}
    (hd : StreamOk f d) {e : Endian} (pos : Nat) {x : Bytes × Nat} {c : Int} :
    readSectionEntry f d e pos = (.ok x, c) ↔
      ∃ b, streamContent f d pos 20 = some b ∧ x = (b.take 16, u32At e b 16) ∧
        c = ((pos + 20 : Nat) : Int) := by
  have hcls : ∀ b : Bytes, b.length = 20 → rdBytes b 0 16 = .ok (b.take 16) := by
    intro b hb
    unfold rdBytes
    rw [if_pos (by omega), List.drop_zero]
  unfold readSectionEntry
  rw [reader_bind_ok]
  constructor
  · rintro ⟨b, c', hb, hk⟩
    rw [readExactly_ok h hd] at hb
    obtain ⟨hb, rfl⟩ := hb
    have hl := streamContent_length hb
    rw [reader_bind_ok] at hk
    obtain ⟨v, c', hv, hk⟩ := hk
    rw [reader_of_ok, rd32_ok e (by omega)] at hv
    obtain ⟨hv, rfl⟩ := hv
    rw [reader_bind_ok] at hk
    obtain ⟨w, c', hw, hk⟩ := hk
    rw [reader_of_ok, hcls b hl] at hw
    obtain ⟨hw, rfl⟩ := hw
    rw [reader_pure_ok] at hk
    obtain ⟨rfl, rfl⟩ := hk
    cases hv; cases hw
    exact ⟨b, hb, rfl, rfl⟩
  · rintro ⟨b, hb, rfl, rfl⟩
    have hl := streamContent_length hb
    refine ⟨b, _, (readExactly_ok h hd pos 20).2 ⟨hb, rfl⟩, ?_⟩
    rw [reader_bind_ok]
    refine ⟨_, _, reader_of_ok.2 ⟨rd32_ok e (by omega), rfl⟩, ?_⟩
    rw [reader_bind_ok]
    exact ⟨_, _, reader_of_ok.2 ⟨hcls b hl, rfl⟩, reader_pure_ok.2 ⟨rfl, rfl⟩⟩

theorem readSectionEntry_defined {f : FileCtx} (h : WellFormedCtx f) {d : DirEntry}
    (hd : StreamOk f d) {e : Endian} (pos : Nat) : (readSectionEntry f d e pos).1.Defined := by
  unfold readSectionEntry
  apply reader_bind_defined (readExactly_defined h hd _ _ (by omega))
  intro b c hb
  rw [readExactly_ok h hd] at hb
  obtain ⟨hb, rfl⟩ := hb
  have hl := streamContent_length hb
  apply reader_bind_defined
  · rw [rd32_ok e (by omega)]; trivial
  intro _ _ _
  apply reader_bind_defined
  · unfold rdBytes; rw [if_pos (by omega)]; trivial
  intro _ _ _; trivial

/-- What is known of a section that was read, without any assumption on offsets. -/
def SectionRead (f : FileCtx) (d : DirEntry) (e : Endian) (pos : Nat) (s : PropSection) : Prop :=
  ∃ b, streamContent f d pos 20 = some b ∧ b.take 16 = s.classId ∧
    (∃ b', streamContent f d (u32At e b 16) 8 = some b' ∧ u32At e b' 4 = s.properties.length) ∧
    ∀ j p, s.properties[j]? = some p →
      PropRead f d e (u32At e b 16) (u32At e b 16 + 8 + 8 * j) p

theorem sectionsLoop_sound {f : FileCtx} (h : WellFormedCtx f) {d : DirEntry} (hd : StreamOk f d)
    {e : Endian} : ∀ (n pos cur : Nat) (l : List PropSection) (c : Int),
      pos < 2 ^ 33 → sectionsLoop f d e n pos cur = (.ok l, c) →
      l.length = n ∧ (∀ i s, l[i]? = some s → SectionRead f d e (pos + 20 * i) s) ∧
      ∃ q : Nat, c = q := by
  intro n
  induction n with
  | zero =>
    intro pos cur l c _ hr
    unfold sectionsLoop at hr
    rw [reader_pure_ok] at hr
    obtain ⟨rfl, rfl⟩ := hr
    refine ⟨rfl, ?_, _, rfl⟩
    intro j p hj
    simp at hj
  | succ n ih =>
    intro pos cur l c hpos hr
    have hsz := hd.fits.size
    unfold sectionsLoop at hr
    rw [reader_bind_ok] at hr
    obtain ⟨u, c', hs, hr⟩ := hr
    rw [seekTo_ok hd.isStream _ _ (by omega)] at hs
    subst hs
    rw [reader_bind_ok] at hr
    obtain ⟨⟨id, off⟩, c', he, hr⟩ := hr
    rw [readSectionEntry_ok h hd] at he
    obtain ⟨b, hb, hx, rfl⟩ := he
    cases hx
    have hin := streamContent_within h hd (by omega) (by omega) hb
    simp only [] at hr
    rw [reader_bind_ok] at hr
    obtain ⟨entry, c', ht, hr⟩ := hr
    rw [tell_ok hd.isStream] at ht
    obtain ⟨rfl, rfl⟩ := ht
    rw [reader_bind_ok] at hr
    obtain ⟨props, c', hp, hr⟩ := hr
    obtain ⟨p1, p2, q, rfl⟩ := readSection_sound h hd (u32At_lt e b 16) hp
    rw [reader_bind_ok] at hr
    obtain ⟨rest, c', hrest, hr⟩ := hr
    rw [reader_pure_ok] at hr
    obtain ⟨rfl, rfl⟩ := hr
    obtain ⟨r1, r2, r3⟩ := ih (pos + 20) q rest _ (by omega) hrest
    refine ⟨by simp [r1], ?_, r3⟩
    intro j s hj
    cases j with
    | zero =>
      simp only [List.getElem?_cons_zero, Option.some.injEq] at hj
      subst hj
      exact ⟨b, hb, rfl, p1, p2⟩
    | succ j =>
      rw [List.getElem?_cons_succ] at hj
      have := r2 j s hj
      rw [show pos + 20 * (j + 1) = pos + 20 + 20 * j by omega]
      exact this

theorem sectionsLoop_complete {f : FileCtx} (h : WellFormedCtx f) {d : DirEntry}
    (hd : StreamOk f d) {e : Endian} (hmax : d.size < 2 ^ 32 - 1) :
    ∀ (ss : List Section) (pos cur : Nat),
      (∀ i s, ss[i]? = some s → SectionAt (streamContent f d) e (pos + 20 * i) s) →
      ∃ (l : List PropSection) (q : Nat),
        sectionsLoop f d e ss.length pos cur = (.ok l, (q : Int)) ∧ l.map seenSection = ss := by
  intro ss
  induction ss with
  | nil => intro pos cur _; exact ⟨[], cur, rfl, rfl⟩
  | cons s ss ih =>
    intro pos cur hp
    obtain ⟨b, hb, hcls, hps⟩ := hp 0 s rfl
    have hin := streamContent_within h hd (by omega) (by omega) hb
    obtain ⟨props, q, hrp, hmp⟩ := readSection_complete h hd hmax hps ((pos + 8 * 0 + 20 : Nat))
    obtain ⟨l, q', hl, hmap⟩ := ih (pos + 20) q (by
      intro j p' hj
      have := hp (j + 1) p' (by rw [List.getElem?_cons_succ]; exact hj)
      rw [show pos + 20 * (j + 1) = pos + 20 + 20 * j by omega] at this
      exact this)
    refine ⟨⟨s.classId, props⟩ :: l, q', ?_, ?_⟩
    · show sectionsLoop f d e (ss.length + 1) pos cur = _
      unfold sectionsLoop
      rw [reader_bind_ok]
      refine ⟨(), _, (seekTo_ok hd.isStream _ _ (by omega)).2 rfl, ?_⟩
      rw [reader_bind_ok]
      refine ⟨_, _, (readSectionEntry_ok h hd _).2 ⟨b, hb, rfl, rfl⟩, ?_⟩
      simp only []
      rw [reader_bind_ok]
      refine ⟨_, _, (tell_ok hd.isStream).2 ⟨rfl, rfl⟩, ?_⟩
      rw [reader_bind_ok]
      refine ⟨_, _, hrp, ?_⟩
      rw [reader_bind_ok]
      refine ⟨_, _, hl, ?_⟩
      rw [hcls]
      exact reader_pure_ok.2 ⟨rfl, rfl⟩
    · rw [List.map_cons, hmap]
      congr 1
      cases s
      simp only [seenSection, Section.mk.injEq, true_and]
      exact hmp

theorem sectionsLoop_defined {f : FileCtx} (h : WellFormedCtx f) {d : DirEntry}
    (hd : StreamOk f d) {e : Endian} : ∀ (n pos cur : Nat), pos < 2 ^ 33 →
      (sectionsLoop f d e n pos cur).1.Defined := by
  intro n
  induction n with
  | zero => intro pos cur _; trivial
  | succ n ih =>
    intro pos cur hpos
    have hsz := hd.fits.size
    unfold sectionsLoop
    apply reader_bind_defined (seekTo_defined _ _ (by omega))
    intro u c hs
    rw [seekTo_ok hd.isStream _ _ (by omega)] at hs
    subst hs
    apply reader_bind_defined (readSectionEntry_defined h hd _)
    intro x c he
    rw [readSectionEntry_ok h hd] at he
    obtain ⟨b, hb, rfl, rfl⟩ := he
    have hin := streamContent_within h hd (by omega) (by omega) hb
    simp only []
    apply reader_bind_defined
    · unfold tell streamGetOffset; rw [if_neg (by simp [hd.isStream])]; trivial
    intro entry c ht
    rw [tell_ok hd.isStream] at ht
    obtain ⟨rfl, rfl⟩ := ht
    apply reader_bind_defined (readSection_defined h hd (u32At_lt e b 16) _)
    intro x c hv
    obtain ⟨-, -, q, rfl⟩ := readSection_sound h hd (u32At_lt e b 16) hv
    apply reader_bind_defined (ih _ _ (by omega))
    intro _ _ _; trivial

/-! ### Sets -/

theorem readSetHeader_eq {b : Bytes} (hb : b.length = 28) :
    readSetHeader b =
      if b.take 2 = setMark .little then
        .ok (.little, (b.drop 8).take 16, u16At .little b 24)
      else if b.take 2 = setMark .big then .ok (.big, (b.drop 8).take 16, u16At .big b 24)
      else .err := by
  obtain ⟨x, y, r, rfl⟩ : ∃ x y r, b = x :: y :: r := by
    match b, hb with
    | x :: y :: r, _ => exact ⟨x, y, r, rfl⟩
  have h16 : ∀ e, rd16 e (x :: y :: r) 24 = .ok (u16At e (x :: y :: r) 24) :=
    fun e => rd16_ok e (by omega)
  have hcls : rdBytes (x :: y :: r) 8 16 = .ok (((x :: y :: r).drop 8).take 16) := by
    unfold rdBytes
    rw [if_pos (by omega)]
  have hx : ∀ (a : UInt8) (v : Nat) (hv : v < 256), a.toNat = v ↔ a = UInt8.ofNat v := by
    intro a v hv
    rw [← UInt8.toNat_inj, UInt8.toNat_ofNat']
    omega
  unfold readSetHeader
  have r0 : rdByte (x :: y :: r) 0 = .ok x.toNat := rfl
  have r1 : rdByte (x :: y :: r) 1 = .ok y.toNat := rfl
  rw [r0, r1, Res.ok_bind, Res.ok_bind, h16, h16, hcls]
  simp only [Res.ok_bind, Res.pure_eq, List.take_succ_cons, List.take_zero, setMark,
    List.cons.injEq, and_true]
  simp only [hx x 0xfe (by omega), hx y 0xff (by omega), hx x 0xff (by omega),
    hx y 0xfe (by omega)]
  rfl

theorem readSet_ok {f : FileCtx} (h : WellFormedCtx f) {d : DirEntry} (hd : StreamOk f d)
    {cur : Nat} {s : PropSet} {c : Int} :
    readSet f d cur = (.ok s, c) ↔
      ∃ b e, streamContent f d 0 28 = some b ∧ b.take 2 = setMark e ∧
        (b.drop 8).take 16 = s.classId ∧
        sectionsLoop f d e (u16At e b 24) 28 28 = (.ok s.sections, c) := by
  unfold readSet
  rw [reader_bind_ok]
  have hmarks : ∀ e e', setMark e = setMark e' → e = e' := by
    intro e e' he
    cases e <;> cases e' <;> first | rfl | (revert he; decide)
  have hhead : ∀ (b : Bytes) (e : Endian), b.length = 28 → b.take 2 = setMark e →
      readSetHeader b = .ok (e, (b.drop 8).take 16, u16At e b 24) := by
    intro b e hb he
    rw [readSetHeader_eq hb]
    cases e with
    | little => rw [if_pos he]
    | big =>
      rw [if_neg (by rw [he]; decide), if_pos he]
  constructor
  · rintro ⟨u, c', hs, hr⟩
    rw [show (0 : Int) = ((0 : Nat) : Int) from rfl, seekTo_ok hd.isStream _ _ (by omega)] at hs
    subst hs
    rw [reader_bind_ok] at hr
    obtain ⟨b, c', hb, hr⟩ := hr
    rw [readExactly_ok h hd] at hb
    obtain ⟨hb, rfl⟩ := hb
    have hl := streamContent_length hb
    rw [reader_bind_ok] at hr
    obtain ⟨x, c', hx, hr⟩ := hr
    rw [reader_of_ok] at hx
    obtain ⟨hx, rfl⟩ := hx
    have he : ∃ e, b.take 2 = setMark e ∧ x = (e, (b.drop 8).take 16, u16At e b 24) := by
      rw [readSetHeader_eq hl] at hx
      split at hx
      · next he => cases hx; exact ⟨_, he, rfl⟩
      · split at hx
        · next he => cases hx; exact ⟨_, he, rfl⟩
        · cases hx
    obtain ⟨e, he, rfl⟩ := he
    simp only [] at hr
    rw [reader_bind_ok] at hr
    obtain ⟨l, c', hl', hr⟩ := hr
    rw [reader_pure_ok] at hr
    obtain ⟨rfl, rfl⟩ := hr
    exact ⟨b, e, hb, he, rfl, hl'⟩
  · rintro ⟨b, e, hb, he, hcls, hloop⟩
    have hl := streamContent_length hb
    refine ⟨(), ((0 : Nat) : Int), (seekTo_ok hd.isStream 0 cur (by omega)).2 rfl, ?_⟩
    rw [reader_bind_ok]
    refine ⟨_, _, (readExactly_ok h hd _ _).2 ⟨hb, rfl⟩, ?_⟩
    rw [reader_bind_ok]
    refine ⟨_, _, reader_of_ok.2 ⟨hhead b e hl he, rfl⟩, ?_⟩
    simp only []
    rw [reader_bind_ok]
    refine ⟨_, _, hloop, ?_⟩
    rw [hcls]
    exact reader_pure_ok.2 ⟨rfl, rfl⟩

theorem readSet_defined' {f : FileCtx} (h : WellFormedCtx f) {d : DirEntry} (hd : StreamOk f d)
    (cur : Nat) : (readSet f d cur).1.Defined := by
  unfold readSet
  apply reader_bind_defined (seekTo_defined 0 cur (by omega))
  intro u c hs
  rw [seekTo_ok hd.isStream _ _ (by omega)] at hs
  subst hs
  apply reader_bind_defined (readExactly_defined h hd _ _ (by omega))
  intro b c hb
  rw [readExactly_ok h hd] at hb
  obtain ⟨hb, rfl⟩ := hb
  have hl := streamContent_length hb
  apply reader_bind_defined
  · rw [readSetHeader_eq hl]
    unfold Reader.of
    split
    · trivial
    · split <;> trivial
  intro x c hx
  rw [reader_of_ok] at hx
  obtain ⟨-, rfl⟩ := hx
  apply reader_bind_defined (sectionsLoop_defined h hd _ 28 _ (by omega))
  intro _ _ _; trivial

end Olecf
