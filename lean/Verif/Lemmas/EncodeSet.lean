import Verif.Spec.EncodeSet
import Verif.Lemmas.Bytes

/-
  The bytes of a written property set, piece by piece.
-/

namespace Olecf
open Olecf.Spec

/-- `b` is in `data` at `pos`. -/
def Piece (data : Bytes) (pos : Nat) (b : Bytes) : Prop :=
  ∃ x y, data = x ++ b ++ y ∧ x.length = pos

theorem Piece.self (d : Bytes) : Piece d 0 d := ⟨[], [], by simp, rfl⟩

theorem Piece.left {d : Bytes} {pos : Nat} {a b : Bytes} (h : Piece d pos (a ++ b)) :
    Piece d pos a := by
  obtain ⟨x, y, rfl, hx⟩ := h
  exact ⟨x, b ++ y, by simp, hx⟩

theorem Piece.right {d : Bytes} {pos : Nat} {a b : Bytes} (h : Piece d pos (a ++ b)) :
    Piece d (pos + a.length) b := by
  obtain ⟨x, y, rfl, hx⟩ := h
  exact ⟨x ++ a, y, by simp, by simp [hx]⟩

theorem Piece.le {d : Bytes} {pos : Nat} {b : Bytes} (h : Piece d pos b) :
    pos + b.length ≤ d.length := by
  obtain ⟨x, y, rfl, hx⟩ := h
  simp [← hx]

theorem sizeBefore_succ (l : Bytes) (ls : List Bytes) (i : Nat) :
    sizeBefore (l :: ls) (i + 1) = l.length + sizeBefore ls i := by
  simp [sizeBefore]

theorem Piece.nth {d : Bytes} {ls : List Bytes} : ∀ {pos i : Nat} {b : Bytes},
    Piece d pos ls.flatten → ls[i]? = some b → Piece d (pos + sizeBefore ls i) b := by
  induction ls with
  | nil => intro pos i b _ h; simp at h
  | cons l ls ih =>
    intro pos i b hp hb
    rw [List.flatten_cons] at hp
    cases i with
    | zero =>
      simp at hb
      subst hb
      simpa [sizeBefore] using hp.left
    | succ i =>
      rw [sizeBefore_succ, ← Nat.add_assoc]
      exact ih hp.right (by simpa using hb)

theorem sizeBefore_const {ls : List Bytes} {k : Nat} (h : ∀ l ∈ ls, l.length = k) :
    ∀ {i : Nat}, i ≤ ls.length → sizeBefore ls i = k * i := by
  induction ls with
  | nil => intro i hi; simp at hi; subst hi; simp [sizeBefore]
  | cons l ls ih =>
    intro i hi
    cases i with
    | zero => simp [sizeBefore]
    | succ i =>
      rw [sizeBefore_succ, h l (by simp), ih (fun x hx => h x (by simp [hx])) (by simpa using hi),
        Nat.mul_add]
      omega

theorem Piece.content {d : Bytes} {pos : Nat} {b : Bytes} (h : Piece d pos b) :
    bytesContent d pos b.length = some b := by
  have hle := h.le
  obtain ⟨x, y, rfl, rfl⟩ := h
  unfold bytesContent
  rw [if_pos hle]
  simp

theorem Piece.content' {d : Bytes} {pos n : Nat} {b : Bytes} (h : Piece d pos b)
    (hn : b.length = n) : bytesContent d pos n = some b := hn ▸ h.content

theorem Piece.word {d : Bytes} {pos : Nat} {e : Endian} {v : Nat} (h : Piece d pos (enc32 e v))
    (hv : v < 2 ^ 32) : (bytesContent d).word e pos = some v := by
  unfold Content.word
  rw [h.content' (enc32_length e v)]
  simp [u32At_enc32 e hv]

theorem fixedTypes_apart {t n : Nat} (h : (t, n) ∈ fixedTypes) :
    t ∈ fixedTypes.map (·.1) := List.mem_map.2 ⟨(t, n), h, rfl⟩

theorem sized_not_fixed : ∀ {t : Nat}, t ∈ sizedTypes → t ∉ fixedTypes.map (·.1) ∧ t ≠ 0x1f := by
  decide

theorem encodeValue_at {d : Bytes} {e : Endian} {pos : Nat} {p : Property}
    (h : Piece d pos (encodeValue e p)) (ht : p.type < 2 ^ 32) (hw : WritableProperty p) :
    ValueAt (bytesContent d) e pos p.type p.data := by
  have h0 := h.left.left.word ht
  have hb := h.left.right
  rw [enc32_length] at hb
  have hmax : maxValueSize < 2 ^ 32 := by decide
  cases hw with
  | fixed hm hd hn =>
    simp only [valueBody, hd, if_pos (fixedTypes_apart hm)] at hb
    rw [hd]
    exact .fixed h0 hm (hb.content' hn)
  | ascii h1 hd hl hm hu =>
    have hb' := hb
    simp only [valueBody, hd, h1] at hb
    rw [if_neg (by decide), if_neg (by decide)] at hb
    have hr := hb.right
    rw [enc32_length, Nat.add_assoc] at hr
    rw [hd, h1, ← hu]
    rw [h1] at h0
    rw [hu]
    conv => rhs; rw [← hu]
    exact .ascii h0 (hb.left.word (by omega)) hl hm hr.content
  | unicode h1 hd hl h2 hm hu =>
    rename_i b
    simp only [valueBody, hd, h1] at hb
    rw [if_neg (by decide), if_pos trivial] at hb
    have hr := hb.right
    rw [enc32_length, Nat.add_assoc] at hr
    rw [h1] at h0
    rw [hd, h1]
    have hk : b.length = 2 * (b.length / 2) := by omega
    have hv := ValueAt.unicode h0 (hb.left.word (by omega)) (by omega) (by omega)
      (hr.content' hk)
    rwa [hu] at hv
  | sized h1 hd hl hm =>
    obtain ⟨h2, h3⟩ := sized_not_fixed h1
    simp only [valueBody, hd] at hb
    rw [if_neg h2, if_neg h3] at hb
    have hr := hb.right
    rw [enc32_length, Nat.add_assoc] at hr
    rw [hd]
    exact .sized h0 h1 (hb.left.word (by omega)) hl hm hr.content
  | none h1 hd =>
    simp only [valueBody, hd] at hb
    rw [hd]
    by_cases h2 : p.type ∈ multiTypes
    · rw [if_pos (.inr (.inr (.inr h2)))] at hb
      exact .multi h0 h2 (hb.word (by decide)) .nil
    · by_cases h3 : p.type = 0x1e ∨ p.type = 0x1f ∨ p.type ∈ sizedTypes
      · rw [if_pos (by rcases h3 with h | h | h <;> simp [h])] at hb
        exact .absent h0 h3 (hb.word (by decide))
      · simp only [not_or] at h3
        exact .other h0 h1 h3.1 h3.2.1 h3.2.2 h2

theorem encodeSection_at {d : Bytes} {e : Endian} {pos : Nat} {s : Section}
    (h : Piece d pos (encodeSection e s)) (hd : d.length < 2 ^ 32)
    (hp : ∀ p ∈ s.properties, p.id < 2 ^ 32 ∧ p.type < 2 ^ 32 ∧ WritableProperty p) :
    PropertiesAt (bytesContent d) e pos s.properties := by
  unfold encodeSection at h
  simp only [] at h
  generalize hvs : s.properties.map (encodeValue e) = values at h
  generalize htb : (s.properties.mapIdx fun j p =>
    enc32 e p.id ++ enc32 e (8 + 8 * s.properties.length + sizeBefore values j)) = table at h
  have hlen : ∀ l ∈ table, l.length = 8 := by
    intro l hl
    rw [← htb] at hl
    obtain ⟨i, hi, rfl⟩ := List.mem_mapIdx.1 hl
    simp
  have htl : table.length = s.properties.length := by rw [← htb]; simp
  have hfl : table.flatten.length = 8 * s.properties.length := by
    have := sizeBefore_const hlen (Nat.le_refl table.length)
    rw [sizeBefore, List.take_length] at this
    rw [List.length_flatten, this, htl]
  have hhead := h.left.left
  have htab := h.left.right
  have hval := h.right
  simp only [List.length_append, enc32_length, hfl] at htab hval
  have hle := hval.le
  refine ⟨_, hhead.content' (by simp), ?_, ?_⟩
  · have := u32At_piece e (enc32 e (8 + 8 * s.properties.length + values.flatten.length)) []
      (v := s.properties.length) (o := 4) (by omega) (by simp)
    simpa using this
  · intro j p hj
    have hjl : j < s.properties.length := (List.getElem?_eq_some_iff.1 hj).1
    obtain ⟨hid, hty, hw⟩ := hp p (List.mem_of_getElem? hj)
    have hrow : table[j]? = some
        (enc32 e p.id ++ enc32 e (8 + 8 * s.properties.length + sizeBefore values j)) := by
      rw [← htb, List.getElem?_mapIdx, hj]; rfl
    have h1 := htab.nth hrow
    rw [sizeBefore_const hlen (by omega)] at h1
    have hv : values[j]? = some (encodeValue e p) := by
      rw [← hvs, List.getElem?_map, hj]; rfl
    have h2 := hval.nth hv
    have h3 := h2.le
    have hoff : 8 + 8 * s.properties.length + sizeBefore values j < 2 ^ 32 := by omega
    have e4 : u32At e (enc32 e p.id ++ enc32 e (8 + 8 * s.properties.length + sizeBefore values j)) 4
        = 8 + 8 * s.properties.length + sizeBefore values j := by
      have := u32At_piece e (enc32 e p.id) [] (o := 4) hoff (by simp)
      simpa using this
    refine ⟨_, h1.content' (by simp), ?_, ?_, ?_⟩
    · rw [u32At_append_left _ (by simp)]
      exact u32At_enc32 e hid
    · rw [e4]; omega
    · rw [e4]
      refine encodeValue_at ?_ hty hw
      have e5 : pos + (8 + 8 * s.properties.length + sizeBefore values j) =
          pos + (4 + 4 + 8 * s.properties.length) + sizeBefore values j := by omega
      rw [e5]
      exact h2

/-- The bytes the writer makes of a property set hold that property set. -/
theorem encodeSet_holds {e : Endian} {s : SetValue} (hw : WritableSet e s) :
    HoldsSet (bytesContent (encodeSet e s)) e s := by
  have hd : (encodeSet e s).length < 2 ^ 32 := by have := hw.size; omega
  generalize hdata : encodeSet e s = d at hd
  have h : Piece d 0 (encodeSet e s) := by rw [hdata]; exact Piece.self d
  unfold encodeSet at h
  simp only [] at h
  generalize hss : s.sections.map (encodeSection e) = secs at h
  generalize htb : (s.sections.mapIdx fun i sec =>
    sec.classId ++ enc32 e (28 + 20 * s.sections.length + sizeBefore secs i)) = table at h
  have hlen : ∀ l ∈ table, l.length = 20 := by
    intro l hl
    rw [← htb] at hl
    obtain ⟨i, hi, rfl⟩ := List.mem_mapIdx.1 hl
    simp [hw.sections _ (List.getElem_mem hi)]
  have htl : table.length = s.sections.length := by rw [← htb]; simp
  have hfl : table.flatten.length = 20 * s.sections.length := by
    have := sizeBefore_const hlen (Nat.le_refl table.length)
    rw [sizeBefore, List.take_length] at this
    rw [List.length_flatten, this, htl]
  have hm : (setMark e).length = 2 := by cases e <;> rfl
  have hhead := h.left.left
  have htab := h.left.right
  have hsec := h.right
  simp only [List.length_append, enc32_length, hfl, hm, hw.classId, List.length_replicate] at htab hsec
  have hle := hsec.le
  refine ⟨_, hhead.content' (by simp [hm, hw.classId]), ?_, ?_, ?_, ?_⟩
  · rw [List.append_assoc, List.append_assoc, ← hm, List.take_left]
  · have e1 : setMark e ++ List.replicate 6 0 ++ s.classId ++ enc32 e s.sections.length =
        (setMark e ++ List.replicate 6 0) ++ (s.classId ++ enc32 e s.sections.length) := by simp
    have e2 : (setMark e ++ List.replicate 6 (0 : UInt8)).length = 8 := by simp [hm]
    rw [e1, ← e2, List.drop_left, ← hw.classId, List.take_left]
  · have := u32At_piece e (setMark e ++ List.replicate 6 0 ++ s.classId) []
      (v := s.sections.length) (o := 24) (by omega) (by simp [hm, hw.classId])
    simpa using this
  · intro i sec hi
    have hil : i < s.sections.length := (List.getElem?_eq_some_iff.1 hi).1
    have hmem := List.mem_of_getElem? hi
    have hrow : table[i]? = some
        (sec.classId ++ enc32 e (28 + 20 * s.sections.length + sizeBefore secs i)) := by
      rw [← htb, List.getElem?_mapIdx, hi]; rfl
    have h1 := htab.nth hrow
    rw [sizeBefore_const hlen (by omega)] at h1
    have hv : secs[i]? = some (encodeSection e sec) := by
      rw [← hss, List.getElem?_map, hi]; rfl
    have h2 := hsec.nth hv
    have h3 := h2.le
    have hoff : 28 + 20 * s.sections.length + sizeBefore secs i < 2 ^ 32 := by omega
    have hc := hw.sections sec hmem
    have e4 : u32At e (sec.classId ++ enc32 e (28 + 20 * s.sections.length + sizeBefore secs i)) 16
        = 28 + 20 * s.sections.length + sizeBefore secs i := by
      have := u32At_piece e sec.classId [] (o := 16) hoff hc.symm
      simpa using this
    refine ⟨_, (by simpa using h1.content' (n := 20) (by simp [hc])), ?_, ?_⟩
    · rw [← hc, List.take_left]
    · rw [e4]
      refine encodeSection_at ?_ hd (hw.properties sec hmem)
      have e5 : 0 + (2 + 6 + 16 + 4 + 20 * s.sections.length) + sizeBefore secs i =
          28 + 20 * s.sections.length + sizeBefore secs i := by omega
      rw [← e5]
      exact h2

end Olecf
