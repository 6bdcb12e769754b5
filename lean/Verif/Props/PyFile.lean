import Verif.Spec.PyFile
import Verif.Props.Py

/-
  Property C75: files opened through a Python file object.
-/

namespace Olecf.Props
open Olecf.Spec

theorem likeFile_offset {o : FileObject σ} {content : Bytes} {pos : σ → Nat}
    (h : LikeFile o content pos) (s : σ) (hp : pos s < 2 ^ 63) :
    (fobjGetOffset o s).1 = .ok (pos s : Int) ∧ pos (fobjGetOffset o s).2 = pos s := by
  have hin : inOff64 (pos s : Int) := by unfold inOff64; omega
  have key : ((o.getOffset.getD o.tell) s).1 = .int (pos s) ∧
      pos ((o.getOffset.getD o.tell) s).2 = pos s := by
    cases hg : o.getOffset with
    | none => exact h.tell s
    | some g => exact h.getOffset g hg s
  unfold fobjGetOffset
  rcases hx : (o.getOffset.getD o.tell) s with ⟨a, s'⟩
  rw [hx] at key
  obtain ⟨rfl, k2⟩ := key
  dsimp only
  rw [if_pos hin]
  exact ⟨rfl, k2⟩

theorem likeFile_seek {o : FileObject σ} {content : Bytes} {pos : σ → Nat}
    (h : LikeFile o content pos) (s : σ) (p : Nat) :
    (fobjSeek o s p 0).1 = .ok () ∧ pos (fobjSeek o s p 0).2 = p := by
  have key := h.seekSet s p
  unfold fobjSeek
  rw [if_neg (by simp)]
  rcases hx : o.seek s p 0 with ⟨a, s'⟩
  rw [hx] at key
  obtain ⟨k1, k2⟩ := key
  cases a with
  | raised => exact absurd rfl k1
  | bytes b => exact ⟨rfl, k2⟩
  | int n => exact ⟨rfl, k2⟩
  | other => exact ⟨rfl, k2⟩

theorem likeFile_readAt {o : FileObject σ} {content : Bytes} {pos : σ → Nat}
    (h : LikeFile o content pos) (s : σ) {p n : Nat} (hp : p < 2 ^ 63) (hn : n < 2 ^ 63) :
    (fobjReadAt o s p n).1 = .ok ((content.drop p).take n) := by
  obtain ⟨h1, h2⟩ := likeFile_seek h s p
  unfold fobjReadAt fobjIoSeek
  rcases hx : fobjSeek o s p 0 with ⟨a, s'⟩
  rw [hx] at h1 h2
  dsimp only at h1 h2
  subst h1
  obtain ⟨h3, h4⟩ := likeFile_offset h s' (by omega)
  dsimp only
  rcases hy : fobjGetOffset o s' with ⟨b, s''⟩
  rw [hy] at h3 h4
  dsimp only at h3 h4
  subst h3
  dsimp only
  rw [if_neg (by omega)]
  unfold fobjRead
  rw [if_neg (by unfold SSIZE_MAX; omega)]
  by_cases h0 : n = 0
  · rw [if_pos h0, h0, List.take_zero]
  · rw [if_neg h0]
    have h5 := h.read s'' n
    rcases hz : o.read s'' n with ⟨c, s3⟩
    rw [hz] at h5
    dsimp only at h5
    subst h5
    dsimp only
    rw [if_pos (by rw [List.length_take]; omega), h4, h2]

/-- C75: through an object that behaves like a file with some content, the library reads what it
  would read from a file with this content, in every sequence of reads, from every state of the
  object. -/
theorem C75_reads {o : FileObject σ} {content : Bytes} {pos : σ → Nat} (h : LikeFile o content pos)
    (l : List (Nat × Nat)) (hl : ∀ r ∈ l, r.1 < 2 ^ 63 ∧ r.2 < 2 ^ 63) (s : σ) :
    (fobjReads o s l).map some =
      l.map fun r => ((Dev.ofBytes content).read r.1 r.2).map Res.ok := by
  induction l generalizing s with
  | nil => rfl
  | cons r l ih =>
    obtain ⟨p, n⟩ := r
    have hr := hl (p, n) (List.mem_cons_self ..)
    have h1 := likeFile_readAt h s hr.1 hr.2
    unfold fobjReads
    rcases hx : fobjReadAt o s p n with ⟨a, s'⟩
    rw [hx] at h1
    dsimp only at h1
    subst h1
    dsimp only
    rw [List.map_cons, List.map_cons, ih (fun r hr => hl r (List.mem_cons_of_mem _ hr)) s']
    rfl

/-- C75: the size of such an object is found, and its position is the same after as before. -/
theorem C75_size {o : FileObject σ} {content : Bytes} {pos : σ → Nat} (h : LikeFile o content pos)
    (hlen : content.length < 2 ^ 63) (s : σ) (hp : pos s < 2 ^ 63) :
    (fobjIoGetSize o s).1 = 1 ∧ (fobjIoGetSize o s).2.1 = some content.length ∧
      pos (fobjIoGetSize o s).2.2 = pos s := by
  refine ⟨rfl, ?_⟩
  unfold fobjIoGetSize fobjSize
  dsimp only
  cases hg : o.getSize with
  | some g =>
    obtain ⟨h1, h2⟩ := h.getSize g hg s
    dsimp only
    rcases hx : g s with ⟨a, s'⟩
    rw [hx] at h1 h2
    dsimp only at h1 h2
    subst h1
    dsimp only
    rw [pyUnsigned64_eq (by omega) (by omega), Int.toNat_natCast]
    exact ⟨rfl, h2⟩
  | none =>
    dsimp only
    obtain ⟨h1, h2⟩ := likeFile_offset h s hp
    rcases hx : fobjGetOffset o s with ⟨a, s1⟩
    rw [hx] at h1 h2
    dsimp only at h1 h2
    subst h1
    dsimp only
    have h3 := h.seekEnd s1
    have h4 : (fobjSeek o s1 0 2).1 = .ok () ∧ pos (fobjSeek o s1 0 2).2 = content.length := by
      unfold fobjSeek
      rw [if_neg (by simp)]
      rcases hy : o.seek s1 0 2 with ⟨b, s2⟩
      rw [hy] at h3
      obtain ⟨k1, k2⟩ := h3
      cases b with
      | raised => exact absurd rfl k1
      | bytes b => exact ⟨rfl, k2⟩
      | int n => exact ⟨rfl, k2⟩
      | other => exact ⟨rfl, k2⟩
    rcases hy : fobjSeek o s1 0 2 with ⟨b, s2⟩
    rw [hy] at h4
    obtain ⟨k1, k2⟩ := h4
    dsimp only at k1 k2
    subst k1
    dsimp only
    obtain ⟨h5, h6⟩ := likeFile_offset h s2 (by omega)
    rcases hz : fobjGetOffset o s2 with ⟨c, s3⟩
    rw [hz] at h5 h6
    dsimp only at h5 h6
    subst h5
    dsimp only
    refine ⟨?_, (likeFile_seek h s3 (pos s)).2⟩
    rw [k2]
    unfold toUnsigned64
    congr 1
    omega

/-- C75 (partial: objects whose `read` gives no more than was asked for, and otherwise whatever
  it likes).  A read is never undefined, and never gives more than was asked for. -/
theorem C75_any_object_partial {o : FileObject σ}
    (h : ∀ s n b, (o.read s n).1 = .bytes b → b.length ≤ n) (s : σ) (p n : Nat) :
    (fobjReadAt o s p n).1 = .err ∨ ∃ b, (fobjReadAt o s p n).1 = .ok b ∧ b.length ≤ n := by
  have hread : ∀ s, (fobjRead o s n).1 = .err ∨ ∃ b, (fobjRead o s n).1 = .ok b ∧ b.length ≤ n := by
    intro s
    unfold fobjRead
    split
    · exact .inl rfl
    · split
      · exact .inr ⟨[], rfl, Nat.zero_le _⟩
      · rcases hx : o.read s n with ⟨a, s'⟩
        cases a with
        | bytes b =>
          have hb := h s n b (by rw [hx])
          dsimp only
          rw [if_pos hb]
          exact .inr ⟨b, rfl, hb⟩
        | _ => exact .inl rfl
  unfold fobjReadAt
  rcases fobjIoSeek o s p 0 with ⟨a, s'⟩
  cases a with
  | ok q =>
    dsimp only
    split
    · exact .inl rfl
    · exact hread s'
  | _ => exact .inl rfl

/-- C75 is violated by objects whose `read` gives more than was asked for: the bytes are written
  behind the buffer, for every size. -/
theorem C75_long_read_violated {o : FileObject σ} {s : σ} {n : Nat} {b : Bytes} (h0 : 0 < n)
    (hn : n < 2 ^ 63) (hb : n < b.length) (h : (o.read s n).1 = .bytes b) :
    (fobjRead o s n).1 = .ub := by
  unfold fobjRead
  rw [if_neg (by unfold SSIZE_MAX; omega), if_neg (by omega)]
  rcases hx : o.read s n with ⟨a, s'⟩
  rw [hx] at h
  dsimp only at h
  subst h
  exact if_neg (by omega)

/-- C75 is violated for the size: that it could not be found is reported as success. -/
theorem C75_size_violated {o : FileObject σ} (hg : o.getSize = none)
    (hs : ∀ s p w, (o.seek s p w).1 = .raised) (s : σ) :
    (fobjIoGetSize o s).1 = 1 ∧ (fobjIoGetSize o s).2.1 = none := by
  refine ⟨rfl, ?_⟩
  have hseek : ∀ s, (fobjSeek o s 0 2).1 = .err := by
    intro s
    unfold fobjSeek
    rw [if_neg (by simp)]
    have := hs s 0 2
    rcases hx : o.seek s 0 2 with ⟨a, s'⟩
    rw [hx] at this
    dsimp only at this
    subst this
    rfl
  unfold fobjIoGetSize fobjSize
  rw [hg]
  dsimp only
  rcases fobjGetOffset o s with ⟨a, s'⟩
  cases a with
  | ok c =>
    dsimp only
    have := hseek s'
    rcases hx : fobjSeek o s' 0 2 with ⟨b, s2⟩
    rw [hx] at this
    dsimp only at this
    subst this
    rfl
  | _ => rfl

/-- `io.BytesIO` behaves like a file. -/
theorem bytesIO_likeFile (content : Bytes) : LikeFile (bytesIO content) content id where
  read _ _ := rfl
  seekSet s p := by
    unfold bytesIO
    dsimp only
    rw [if_pos rfl, if_neg (by omega)]
    exact ⟨by simp, by simp⟩
  seekEnd s := by
    unfold bytesIO
    dsimp only
    simp only [Int.zero_add, show ¬ (2:Int) = 0 by decide, show ¬ (2:Int) = 1 by decide, if_false]
    rw [if_neg (by omega)]
    exact ⟨by simp, by simp⟩
  tell _ := ⟨rfl, rfl⟩
  getOffset g h := by cases h
  getSize g h := by cases h

/-- The reads of the header and of a sector of a file with a small document, through `io.BytesIO`
  with any position. -/
example (e : Endian) (s : Nat) :
    (fobjReads (bytesIO (sampleFile e)) s [(0, 512), (512, 512)]).map some =
      [(0, 512), (512, 512)].map fun r => ((Dev.ofBytes (sampleFile e)).read r.1 r.2).map Res.ok :=
  C75_reads (bytesIO_likeFile _) _ (by simp) s

/-- An object that ignores the size: `lambda size: b"AAAA"`. -/
example : (fobjRead { bytesIO [] with read := fun s _ => (.bytes [65, 65, 65, 65], s) } 0 3).1 = .ub :=
  C75_long_read_violated (b := [65, 65, 65, 65]) (by decide) (by decide) (by decide) rfl

end Olecf.Props
