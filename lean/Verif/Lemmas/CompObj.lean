import Verif.Spec.CompObj
import Verif.Lemmas.Stream
import Verif.Lemmas.Memory
import Verif.Lemmas.EncodeSet

/-! Reasoning about `libolecf_compound_object_stream_read`. -/

namespace Olecf
namespace Lemmas

open Olecf.Spec

/-- The blocks of the three pointers. -/
def compBlocks (s : CompLocals) : List Nat :=
  s.userType.toList ++ s.clipboard.toList ++ s.reserved.toList

theorem compBlocks_nil {s : CompLocals} (h : compBlocks s = []) :
    s.userType = none ∧ s.clipboard = none ∧ s.reserved = none := by
  unfold compBlocks at h
  simp only [List.append_eq_nil_iff, Option.toList_eq_nil_iff] at h
  exact ⟨h.1.1, h.1.2, h.2⟩

/-- A position within reach. -/
def WithinReach (f : FileCtx) (d : DirEntry) (p : Nat) : Prop :=
  p < 2 ^ 32 ∧ p ≤ unitOf f d * INT_MAX

theorem WithinReach.mono {f : FileCtx} {d : DirEntry} {p q : Nat} (h : WithinReach f d p) (hq : q ≤ p) :
    WithinReach f d q := ⟨by have := h.1; omega, by have := h.2; omega⟩

/-- What a step of the function does: it keeps the heap in order, succeeds from `pos` with `a` at
  `pos'` only if `P pos a pos'`, and if so when there is memory. -/
structure Does (f : FileCtx) (d : DirEntry) {α : Type} (m : CompMem α)
    (P : Nat → α → Nat → Prop) (k : Nat) : Prop where
  run : ∀ (s : CompLocals) (h : Heap) (base : List Nat) (pos : Nat), s.offset = pos →
    compBlocks s = [] → Sound h → h.live.Perm base →
    Sound (m s h).2.2 ∧ (m s h).2.2.grant = h.grant ∧
    (m s h).2.2.live.Perm (compBlocks (m s h).2.1 ++ base) ∧
    (∀ a, (m s h).1 = .ok a → compBlocks (m s h).2.1 = [] ∧
      ∃ pos' : Nat, (m s h).2.1.offset = pos' ∧ P pos a pos') ∧
    (Ample h → ∀ a (pos' : Nat), P pos a pos' → (m s h).1 = .ok a ∧ (m s h).2.1.offset = pos') ∧
    (WithinReach f d (pos + k) → (m s h).1.Defined)
  far : ∀ pos a pos', P pos a pos' → pos' ≤ pos + k

variable {f : FileCtx} {d : DirEntry} {α β : Type}

theorem does_pure (a : α) : Does f d (pure a : CompMem α) (fun pos b pos' => b = a ∧ pos' = pos) 0 := by
  refine ⟨fun s h base pos hp hb hs hl => ?_, fun pos b pos' h => by omega⟩
  refine ⟨hs, rfl, ?_, fun b hb' => ?_, fun _ b pos' h => ?_, fun _ => trivial⟩
  · show h.live.Perm (compBlocks s ++ base)
    rw [hb]; exact hl
  · have : (Res.ok a : Res α) = .ok b := hb'
    cases this
    exact ⟨hb, pos, hp, rfl, rfl⟩
  · obtain ⟨rfl, rfl⟩ := h
    exact ⟨rfl, hp⟩

theorem does_fail : Does f d (Mem.fail : CompMem α) (fun _ _ _ => False) 0 := by
  refine ⟨fun s h base pos hp hb hs hl => ?_, fun pos b pos' h => h.elim⟩
  refine ⟨hs, rfl, ?_, fun b hb' => ?_, fun _ b pos' h => h.elim, fun _ => trivial⟩
  · show h.live.Perm (compBlocks s ++ base)
    rw [hb]; exact hl
  · cases hb'

theorem does_of {r : Res α} (hr : r.Defined) :
    Does f d (Mem.of r : CompMem α) (fun pos b pos' => r = .ok b ∧ pos' = pos) 0 := by
  refine ⟨fun s h base pos hp hb hs hl => ?_, fun pos b pos' h => by omega⟩
  refine ⟨hs, rfl, ?_, fun b hb' => ⟨hb, pos, hp, hb', rfl⟩, fun _ b pos' h => ?_, fun _ => hr⟩
  · show h.live.Perm (compBlocks s ++ base)
    rw [hb]; exact hl
  · exact ⟨h.1, by rw [h.2]; exact hp⟩

theorem does_bind {m : CompMem α} {k : α → CompMem β} {P : Nat → α → Nat → Prop}
    {Q : α → Nat → β → Nat → Prop} {n n' : Nat} (hm : Does f d m P n)
    (hk : ∀ a, (∃ p p', P p a p') → Does f d (k a) (Q a) n') :
    Does f d (m >>= k) (fun pos b pos' => ∃ a mid, P pos a mid ∧ Q a mid b pos') (n + n') := by
  refine ⟨fun s h base pos hp hb hs hl => ?_, ?_⟩
  · obtain ⟨h1, h2, h3, h4, h5, h6⟩ := hm.run s h base pos hp hb hs hl
    rw [mem_bind]
    unfold Mem.bind
    revert h1 h2 h3 h4 h5 h6
    rcases m s h with ⟨r, s', h'⟩
    intro h1 h2 h3 h4 h5 h6
    dsimp only at h1 h2 h3 h4 h5 h6
    have hno : (∀ a, r ≠ .ok a) → Ample h →
        ∀ (b : β) (pos' : Nat), ¬ ∃ a mid, P pos a mid ∧ Q a mid b pos' := by
      rintro hr ha b pos' ⟨a, mid, hp1, _⟩
      exact hr a (h5 ha a mid hp1).1
    cases r with
    | ok a =>
      obtain ⟨hb', mid, hmid, hP⟩ := h4 a rfl
      rw [hb'] at h3
      obtain ⟨k1, k2, k3, k4, k5, k6⟩ := (hk a ⟨_, _, hP⟩).run s' h' base mid hmid hb' h1 h3
      refine ⟨k1, k2.trans h2, k3, fun b hb => ?_, fun ha b pos' hq => ?_, fun hr => ?_⟩
      · obtain ⟨e1, pos', e2, e3⟩ := k4 b hb
        exact ⟨e1, pos', e2, a, mid, hP, e3⟩
      · obtain ⟨a', mid', hp1, hq⟩ := hq
        obtain ⟨e1, e2⟩ := h5 ha a' mid' hp1
        cases e1
        have : mid' = mid := by rw [hmid] at e2; exact_mod_cast e2.symm
        subst this
        exact k5 (fun n => by rw [h2]; exact ha n) b pos' hq
      · have := hm.far _ _ _ hP
        exact k6 (hr.mono (by omega))
    | err =>
      refine ⟨h1, h2, h3, fun b hb => (by cases hb), fun ha b pos' hq => ?_, fun hr => trivial⟩
      exact (hno (fun a h => (by cases h)) ha b pos' hq).elim
    | ub =>
      refine ⟨h1, h2, h3, fun b hb => (by cases hb), fun ha b pos' hq => ?_, fun hr => ?_⟩
      · exact (hno (fun a h => (by cases h)) ha b pos' hq).elim
      · exact h6 (hr.mono (by omega))
    | hang =>
      refine ⟨h1, h2, h3, fun b hb => (by cases hb), fun ha b pos' hq => ?_, fun hr => ?_⟩
      · exact (hno (fun a h => (by cases h)) ha b pos' hq).elim
      · exact h6 (hr.mono (by omega))
  · rintro pos b pos' ⟨a, mid, hp1, hq⟩
    have h1 := hm.far _ _ _ hp1
    have h2 := (hk a ⟨_, _, hp1⟩).far _ _ _ hq
    omega

theorem does_weaken {m : CompMem α} {P Q : Nat → α → Nat → Prop} {n n' : Nat}
    (hm : Does f d m P n) (hPQ : ∀ pos a pos', P pos a pos' ↔ Q pos a pos') (hn : n ≤ n') :
    Does f d m Q n' := by
  refine ⟨fun s h base pos hp hb hs hl => ?_, fun pos a pos' h => ?_⟩
  · obtain ⟨h1, h2, h3, h4, h5, h6⟩ := hm.run s h base pos hp hb hs hl
    refine ⟨h1, h2, h3, fun a ha => ?_, fun ha a pos' hq => h5 ha a pos' ((hPQ _ _ _).2 hq),
      fun hr => h6 (hr.mono (by omega))⟩
    obtain ⟨e1, pos', e2, e3⟩ := h4 a ha
    exact ⟨e1, pos', e2, (hPQ _ _ _).1 e3⟩
  · have := hm.far _ _ _ ((hPQ _ _ _).2 h)
    omega

/-! ### Reads -/

theorem streamLoop_off (io : IoHandle) (dev : Dev) (sat table : AllocTable) (short : Bool) (ss : Nat) :
    ∀ (fuel index id off size : Nat) (data : Bytes) (o : Nat),
      (streamLoop io dev sat table short ss fuel index id off size).res = .ok (data, o) →
      o = off + size := by
  intro fuel
  induction fuel with
  | zero =>
    intro index id off size data o h
    unfold streamLoop at h
    split at h
    · next hz => simp [Out.of] at h; omega
    · simp [Out.of] at h
  | succ fuel ih =>
    intro index id off size data o h
    unfold streamLoop at h
    split at h
    · next hz => simp [Out.of] at h; omega
    · dsimp only at h
      split at h
      · cases h
      · split at h
        · next pos _ =>
          generalize (if off > index * ss then off - index * ss else 0) = skip at h
          generalize hlen : (if (ss + 2 ^ 64 - skip) % 2 ^ 64 > size
            then size else (ss + 2 ^ 64 - skip) % 2 ^ 64) = len at h
          have hle : len ≤ size := by
            rw [← hlen]
            split
            · exact Nat.le_refl _
            · omega
          split at h
          · cases h
          · split at h
            · cases h
            · split at h
              · split at h
                · cases h
                · next id' _ _ =>
                  generalize hout : streamLoop io dev sat table short ss fuel (index + 1) id' (off + len)
                    (size - len) = out at h
                  rcases out with ⟨rd, r⟩
                  cases r with
                  | ok v =>
                    obtain ⟨rest, o'⟩ := v
                    have := ih (index + 1) id' (off + len) (size - len) rest o' (by rw [hout])
                    simp only [Res.ok.injEq, Prod.mk.injEq] at h
                    omega
                  | err => cases h
                  | ub => cases h
                  | hang => cases h
              · cases h
              · cases h
              · cases h
        · cases h
        · cases h
        · cases h

theorem readStream_off {off size : Nat} {data : Bytes} {o : Nat}
    (h : (readStream f d off size).res = .ok (data, o)) : o = off + size := by
  unfold readStream at h
  split at h
  · cases h
  · split at h
    · cases h
    · split at h
      · cases h
      · dsimp only at h
        split at h
        · cases h
        · split at h
          · exact streamLoop_off _ _ _ _ _ _ _ _ _ _ _ _ _ h
          · cases h
          · cases h
          · cases h

/-- A read of the sectors of a stream. -/
def RawAt (f : FileCtx) (d : DirEntry) (pos : Nat) (b : Bytes) : Prop :=
  (readStream f d pos b.length).res = .ok (b, pos + b.length)

theorem does_read (hf : WellFormedCtx f) (hd : EntryFits d) (n : Nat) :
    Does f d (compRead f d n)
      (fun pos b pos' => RawAt f d pos b ∧ b.length = n ∧ pos' = pos + n) n := by
  refine ⟨fun s h base pos hp hb hs hl => ?_, fun pos b pos' h => by omega⟩
  have e : compRead f d n s h = ((match (readStream f d s.offset n).res with
      | .ok (data, off) => ((if data.length = n then .ok data else .err : Res Bytes),
          ({ s with offset := off } : CompLocals))
      | .err => (.err, s)
      | .ub => (.ub, s)
      | .hang => (.hang, s)).1, (match (readStream f d s.offset n).res with
      | .ok (data, off) => ((if data.length = n then .ok data else .err : Res Bytes),
          ({ s with offset := off } : CompLocals))
      | .err => (.err, s)
      | .ub => (.ub, s)
      | .hang => (.hang, s)).2, h) := rfl
  rw [hp] at e
  have hl' : h.live.Perm (compBlocks s ++ base) := by rw [hb]; exact hl
  generalize hr : (readStream f d pos n).res = r at e
  have hraw : ∀ (b : Bytes), RawAt f d pos b → b.length = n → r = .ok (b, pos + n) := by
    intro b h1 h2
    unfold RawAt at h1
    rw [h2] at h1
    rw [← hr]; exact h1
  cases r with
  | ok v =>
    obtain ⟨data, off⟩ := v
    dsimp only at e
    rw [e]
    have ho := readStream_off hr
    subst ho
    refine ⟨hs, rfl, hl', fun a ha => ?_, fun _ a pos' hP => ?_, fun _ => ?_⟩
    · dsimp only at ha
      split at ha
      · next hlen =>
        cases ha
        exact ⟨hb, pos + n, by push_cast; rfl, by unfold RawAt; rw [hlen]; exact hr, hlen, rfl⟩
      · cases ha
    · obtain ⟨h1, h2, rfl⟩ := hP
      have := hraw a h1 h2
      cases this
      exact ⟨if_pos h2, by push_cast; rfl⟩
    · dsimp only; split <;> trivial
  | err =>
    dsimp only at e
    rw [e]
    refine ⟨hs, rfl, hl', fun a ha => (by cases ha), fun _ a pos' hP => ?_, fun _ => trivial⟩
    exact absurd (hraw a hP.1 hP.2.1) (by simp)
  | ub =>
    dsimp only at e
    rw [e]
    refine ⟨hs, rfl, hl', fun a ha => (by cases ha), fun _ a pos' hP => ?_, fun hre => ?_⟩
    · exact absurd (hraw a hP.1 hP.2.1) (by simp)
    · have := (readStream_safe hf hd (off := pos) (size := n) (by have := hre.1; omega)
        (by have := hre.1; omega) hre.2).1
      rw [hr] at this
      rcases this with h | ⟨_, h, _⟩ <;> cases h
  | hang =>
    dsimp only at e
    rw [e]
    refine ⟨hs, rfl, hl', fun a ha => (by cases ha), fun _ a pos' hP => ?_, fun hre => ?_⟩
    · exact absurd (hraw a hP.1 hP.2.1) (by simp)
    · have := (readStream_safe hf hd (off := pos) (size := n) (by have := hre.1; omega)
        (by have := hre.1; omega) hre.2).1
      rw [hr] at this
      rcases this with h | ⟨_, h, _⟩ <;> cases h

theorem enc32_u32At (e : Endian) {b : Bytes} (h : b.length = 4) : enc32 e (u32At e b 0) = b := by
  obtain ⟨b0, b1, b2, b3, rfl⟩ : ∃ b0 b1 b2 b3, b = [b0, b1, b2, b3] := by
    match b, h with
    | [b0, b1, b2, b3], _ => exact ⟨b0, b1, b2, b3, rfl⟩
  have h0 := b0.toNat_lt
  have h1 := b1.toNat_lt
  have h2 := b2.toNat_lt
  have h3 := b3.toNat_lt
  have key : ∀ (x : UInt8) (n : Nat), n % 256 = x.toNat → UInt8.ofNat n = x := by
    intro x n hn
    apply UInt8.toNat_inj.1
    simpa using hn
  cases e <;> simp only [u32At, enc32, byteAt, List.getD, List.getElem?_cons_zero,
    List.getElem?_cons_succ, Option.getD_some, List.cons.injEq, and_true]
  · exact ⟨key _ _ (by omega), key _ _ (by omega), key _ _ (by omega), key _ _ (by omega)⟩
  · exact ⟨key _ _ (by omega), key _ _ (by omega), key _ _ (by omega), key _ _ (by omega)⟩

theorem u32At_lt (e : Endian) {b : Bytes} (h : b.length = 4) : u32At e b 0 < 2 ^ 32 :=
  rd32_lt (rd32_ok e (o := 0) (b := b) (by omega))

theorem does_size (hf : WellFormedCtx f) (hd : EntryFits d) :
    Does f d (compReadSize f d)
      (fun pos v pos' => v < 2 ^ 32 ∧ RawAt f d pos (enc32 f.io.byteOrder v) ∧ pos' = pos + 4) 4 := by
  unfold compReadSize
  refine does_weaken (does_bind (does_read hf hd 4)
    (Q := fun a pos b pos' => rd32 f.io.byteOrder a 0 = .ok b ∧ pos' = pos) (n' := 0)
    fun a ha => ?_) ?_ (by omega)
  · obtain ⟨_, _, _, hlen, _⟩ := ha
    refine does_of ?_
    rw [rd32_ok _ (by omega)]
    trivial
  · intro pos v pos'
    constructor
    · rintro ⟨b, mid, ⟨h1, h2, rfl⟩, h3, rfl⟩
      rw [rd32_ok _ (by omega)] at h3
      cases h3
      exact ⟨u32At_lt _ h2, by rw [enc32_u32At _ h2]; exact h1, rfl⟩
    · rintro ⟨h1, h2, rfl⟩
      refine ⟨_, _, ⟨h2, enc32_length _ _, rfl⟩, ?_, rfl⟩
      rw [rd32_ok _ (by simp), u32At_enc32 _ h1]

/-! ### Buffers -/

theorem compBlocks_set {s : CompLocals} (h : compBlocks s = []) (slot : CompSlot) (b : Nat) :
    compBlocks (s.set slot (some b)) = [b] := by
  obtain ⟨h1, h2, h3⟩ := compBlocks_nil h
  cases slot <;> simp [compBlocks, CompLocals.set, h1, h2, h3]

theorem compBlocks_set_set {s : CompLocals} (h : compBlocks s = []) (slot : CompSlot) (b : Nat) :
    compBlocks ((s.set slot (some b)).set slot none) = [] := by
  obtain ⟨h1, h2, h3⟩ := compBlocks_nil h
  cases slot <;> simp [compBlocks, CompLocals.set, h1, h2, h3]

theorem set_offset (s : CompLocals) (slot : CompSlot) (b : Option Nat) :
    (s.set slot b).offset = s.offset := by cases slot <;> rfl

theorem compBlocks_offset (s : CompLocals) (o : Int) :
    compBlocks { s with offset := o } = compBlocks s := rfl

/-- The outcome and the offset of a read depend on the offset only. -/
theorem compRead_outcome (n : Nat) (s : CompLocals) (h : Heap) :
    (compRead f d n s h).2.2 = h ∧
    ((compRead f d n s h).2.1 = { s with offset := (compRead f d n s h).2.1.offset }) := by
  refine ⟨rfl, ?_⟩
  unfold compRead Mem.lift
  dsimp only
  split <;> rfl

theorem compRead_same (n : Nat) (s s' : CompLocals) (h h' : Heap) (hs : s.offset = s'.offset) :
    (compRead f d n s h).1 = (compRead f d n s' h').1 ∧
    (compRead f d n s h).2.1.offset = (compRead f d n s' h').2.1.offset := by
  unfold compRead Mem.lift
  dsimp only
  rw [hs]
  cases (readStream f d s'.offset n).res with
  | ok v => exact ⟨rfl, rfl⟩
  | err => exact ⟨rfl, hs⟩
  | ub => exact ⟨rfl, hs⟩
  | hang => exact ⟨rfl, hs⟩

theorem does_buffer (hf : WellFormedCtx f) (hd : EntryFits d) (slot : CompSlot) (n : Nat) :
    Does f d (compBuffer f d slot n)
      (fun pos _ pos' => ∃ b, RawAt f d pos b ∧ b.length = n ∧ pos' = pos + n) n := by
  refine ⟨fun s h base pos hp hb hs hl => ?_, ?_⟩
  · have hl' : h.live.Perm (compBlocks s ++ base) := by rw [hb]; exact hl
    unfold compBuffer
    rw [mem_bind]
    unfold Mem.bind Mem.alloc
    by_cases hg : h.grant h.asked
    · rw [if_pos hg]
      dsimp only
      generalize hh1 : ({ h with asked := h.asked + 1, live := h.asked :: h.live } : Heap) = h1
      have hs1 : Sound h1 := by
        rw [← hh1]
        refine ⟨hs.good, List.nodup_cons.2 ⟨fun hm => ?_, hs.nodup⟩, fun b hb => ?_⟩
        · exact absurd (hs.old _ hm) (by omega)
        · rcases List.mem_cons.1 hb with rfl | hb
          · exact Nat.lt_succ_self _
          · exact Nat.lt_succ_of_lt (hs.old b hb)
      have hlive1 : h1.live = h.asked :: h.live := by rw [← hh1]
      have hgr1 : h1.grant = h.grant := by rw [← hh1]
      have hmem1 : h.asked ∈ h1.live := by rw [hlive1]; exact List.mem_cons_self
      have e1 : ∀ (k : Unit → CompMem Unit), (compAssign slot (some h.asked) >>= k) s h1 =
          k () (s.set slot (some h.asked)) h1 := fun k => rfl
      rw [e1]
      have e2 : ∀ (k : Unit → CompMem Unit), (Mem.use h.asked >>= k) (s.set slot (some h.asked)) h1 =
          k () (s.set slot (some h.asked)) h1 := by
        intro k
        rw [mem_bind]
        unfold Mem.bind Mem.use
        rw [if_pos hmem1]
      rw [e2, mem_bind]
      unfold Mem.bind
      have hset := compBlocks_set hb slot h.asked
      obtain ⟨g1, g2, g3, g4, g5, g6⟩ := (does_read hf hd n).run s h base pos hp hb hs hl
      obtain ⟨c1, c2⟩ := compRead_outcome (f := f) (d := d) n (s.set slot (some h.asked)) h1
      obtain ⟨c3, c4⟩ := compRead_same (f := f) (d := d) n (s.set slot (some h.asked)) s h1 h
        (set_offset _ _ _)
      revert c1 c2 c3 c4
      rcases compRead f d n (s.set slot (some h.asked)) h1 with ⟨r, s2, h2⟩
      intro c1 c2 c3 c4
      dsimp only at c1 c2 c3 c4
      subst c1
      rw [← c3] at g4 g5 g6
      rw [← c4] at g4 g5
      have hb2 : compBlocks s2 = [h.asked] := by rw [c2, compBlocks_offset, hset]
      have hperm : h2.live.Perm (compBlocks s2 ++ base) := by
        rw [hb2, hlive1]
        exact hl.cons _
      cases r with
      | ok a =>
        dsimp only
        have e3 : ∀ (k : Unit → CompMem Unit), (Mem.release h.asked >>= k) s2 h2 =
            k () s2 { h2 with live := h2.live.erase h.asked } := by
          intro k
          rw [mem_bind]
          unfold Mem.bind Mem.release
          rw [if_pos hmem1]
        rw [e3]
        have e4 : compAssign slot none s2 { h2 with live := h2.live.erase h.asked } =
            (.ok (), s2.set slot none, { h2 with live := h2.live.erase h.asked }) := rfl
        rw [e4]
        have hb3 : compBlocks (s2.set slot none) = [] := by
          have := compBlocks_set_set hb slot h.asked
          rw [c2]
          have e : ∀ (t : CompLocals) (o : Int), ({ t with offset := o } : CompLocals).set slot none =
              { t.set slot none with offset := o } := by intro t o; cases slot <;> rfl
          rw [e, compBlocks_offset]
          exact this
        have hlive2 : (h2.live.erase h.asked).Perm base := by
          rw [hlive1, List.erase_cons_head]
          exact hl
        obtain ⟨_, pos', hpos', hP⟩ := g4 a rfl
        refine ⟨⟨hs1.good, hs1.nodup.erase _, fun b hb => hs1.old b (List.mem_of_mem_erase hb)⟩, hgr1,
          ?_, fun _ _ => ⟨hb3, pos', by rw [set_offset]; exact hpos', a, hP⟩, fun ha b pos'' hQ => ?_,
          fun _ => trivial⟩
        · dsimp only
          rw [hb3]
          exact hlive2
        · obtain ⟨b', hQ⟩ := hQ
          refine ⟨rfl, ?_⟩
          dsimp only
          rw [set_offset]
          exact (g5 ha b' pos'' hQ).2
      | err =>
        refine ⟨hs1, hgr1, hperm, fun a ha => (by cases ha), fun ha a pos' hP => ?_, fun _ => trivial⟩
        obtain ⟨b, hP⟩ := hP
        exact absurd (g5 ha b pos' hP).1 (by simp)
      | ub =>
        refine ⟨hs1, hgr1, hperm, fun a ha => (by cases ha), fun ha a pos' hP => ?_, fun hr => g6 hr⟩
        obtain ⟨b, hP⟩ := hP
        exact absurd (g5 ha b pos' hP).1 (by simp)
      | hang =>
        refine ⟨hs1, hgr1, hperm, fun a ha => (by cases ha), fun ha a pos' hP => ?_, fun hr => g6 hr⟩
        obtain ⟨b, hP⟩ := hP
        exact absurd (g5 ha b pos' hP).1 (by simp)
    · rw [if_neg hg]
      dsimp only
      refine ⟨⟨hs.good, hs.nodup, fun b hb => Nat.lt_succ_of_lt (hs.old b hb)⟩, rfl, hl',
        fun a ha => (by cases ha), fun ha => absurd (ha _) (by simpa using hg), fun _ => trivial⟩
  · rintro pos _ pos' ⟨b, _, _, rfl⟩
    exact Nat.le_refl _

/-! ### Fields -/

/-- Consecutive reads of the sectors of a stream. -/
def Run (f : FileCtx) (d : DirEntry) : Nat → List Bytes → Prop
  | _, [] => True
  | pos, b :: bs => (0 < b.length → RawAt f d pos b) ∧ Run f d (pos + b.length) bs

theorem run_append : ∀ (as bs : List Bytes) (pos : Nat),
    Run f d pos (as ++ bs) ↔ Run f d pos as ∧ Run f d (pos + as.flatten.length) bs
  | [], bs, pos => by simp [Run]
  | a :: as, bs, pos => by
    simp only [List.cons_append, Run, run_append as bs, List.flatten_cons, List.length_append,
      Nat.add_assoc, and_assoc]

theorem sized_length (e : Endian) (s : Bytes) : (sized e s).length = 4 + s.length := by
  simp [sized]

theorem clip_length (e : Endian) (c : Clip) : (c.bytes e).length = 4 + c.data.length := by
  simp [Clip.bytes]

theorem does_userType (hf : WellFormedCtx f) (hd : EntryFits d) :
    Does f d (compUserType f d)
      (fun pos _ pos' => ∃ u : Bytes, (0 < u.length ∧ Modest u) ∧
        Run f d pos [enc32 f.io.byteOrder u.length, u] ∧ pos' = pos + (4 + u.length)) (2 ^ 27 + 4) := by
  unfold compUserType
  refine does_weaken (does_bind (does_size hf hd)
    (Q := fun v pos (_ : Unit) pos' => (0 < v ∧ v ≤ 2 ^ 27) ∧
      ∃ b, RawAt f d pos b ∧ b.length = v ∧ pos' = pos + v) (n' := 2 ^ 27) fun v _ => ?_) ?_ (by omega)
  · have hmax : MAX_ALLOC = 2 ^ 27 := by decide
    split
    · refine does_weaken does_fail (fun pos a pos' => ?_) (by omega)
      simp only [false_iff, not_and]
      intro h
      omega
    · refine does_weaken (does_buffer hf hd .userType v) (fun pos a pos' => ?_) (by omega)
      exact (and_iff_right (by omega)).symm
  · intro pos a pos'
    constructor
    · rintro ⟨v, mid, ⟨h1, h2, rfl⟩, h3, b, h4, rfl, rfl⟩
      refine ⟨b, ⟨h3.1, h3.2⟩, ⟨fun _ => h2, fun _ => ?_, trivial⟩, by omega⟩
      rw [enc32_length]
      exact h4
    · rintro ⟨u, ⟨h1, h2⟩, ⟨h3, h4, _⟩, rfl⟩
      have h2' : u.length ≤ 2 ^ 27 := h2
      rw [enc32_length] at h3 h4
      exact ⟨u.length, pos + 4, ⟨by omega, h3 (by omega), rfl⟩, ⟨h1, h2'⟩, u, h4 h1, rfl, by omega⟩

theorem does_string (hf : WellFormedCtx f) (hd : EntryFits d) (slot : CompSlot) :
    Does f d (compString f d slot)
      (fun pos _ pos' => ∃ u : Bytes, Modest u ∧
        Run f d pos [enc32 f.io.byteOrder u.length, u] ∧ pos' = pos + (4 + u.length)) (2 ^ 27 + 4) := by
  unfold compString
  refine does_weaken (does_bind (does_size hf hd)
    (Q := fun v pos (_ : Unit) pos' => v ≤ 2 ^ 27 ∧
      ∃ b : Bytes, (0 < v → RawAt f d pos b) ∧ b.length = v ∧ pos' = pos + v) (n' := 2 ^ 27)
    fun v _ => ?_) ?_ (by omega)
  · have hmax : MAX_ALLOC = 2 ^ 27 := by decide
    split
    · split
      · refine does_weaken does_fail (fun pos a pos' => ?_) (by omega)
        simp only [false_iff, not_and]
        intro h
        omega
      · refine does_weaken (does_buffer hf hd slot v) (fun pos a pos' => ?_) (by omega)
        rw [and_iff_right (by omega)]
        refine exists_congr fun b => ?_
        rw [forall_prop_of_true (by assumption)]
    · refine does_weaken (does_pure ()) (fun pos a pos' => ?_) (by omega)
      constructor
      · rintro ⟨_, rfl⟩
        exact ⟨by omega, [], fun h => absurd h (by assumption), by simp; omega, by omega⟩
      · rintro ⟨_, _, _, _, rfl⟩
        exact ⟨rfl, by omega⟩
  · intro pos a pos'
    constructor
    · rintro ⟨v, mid, ⟨h1, h2, rfl⟩, h3, b, h4, rfl, rfl⟩
      refine ⟨b, h3, ⟨fun _ => h2, fun hb => ?_, trivial⟩, by omega⟩
      rw [enc32_length]
      exact h4 hb
    · rintro ⟨u, h2, ⟨h3, h4, _⟩, rfl⟩
      have h2' : u.length ≤ 2 ^ 27 := h2
      rw [enc32_length] at h3 h4
      exact ⟨u.length, pos + 4, ⟨by omega, h3 (by omega), rfl⟩, h2', u, h4, rfl, by omega⟩

theorem does_clipboard (hf : WellFormedCtx f) (hd : EntryFits d) :
    Does f d (compClipboard f d)
      (fun pos _ pos' => ∃ c : Clip, c.Known ∧
        Run f d pos [enc32 f.io.byteOrder c.word, c.data] ∧ pos' = pos + (4 + c.data.length))
      (0x190 + 4) := by
  unfold compClipboard
  refine does_weaken (does_bind (does_size hf hd)
    (Q := fun v pos (_ : Unit) pos' => compClipboardSize v ≤ 0x190 ∧
      ∃ b : Bytes, (0 < b.length → RawAt f d pos b) ∧ b.length = compClipboardSize v ∧
        pos' = pos + compClipboardSize v) (n' := 0x190)
    fun v _ => ?_) ?_ (by omega)
  · split
    · refine does_weaken does_fail (fun pos a pos' => ?_) (by omega)
      simp only [false_iff, not_and]
      intro h
      omega
    · split
      · refine does_weaken (does_buffer hf hd .clipboard _) (fun pos a pos' => ?_) (by omega)
        rw [and_iff_right (by omega)]
        refine exists_congr fun b => ?_
        constructor
        · rintro ⟨h1, h2, h3⟩
          exact ⟨fun _ => h1, h2, h3⟩
        · rintro ⟨h1, h2, h3⟩
          exact ⟨h1 (by omega), h2, h3⟩
      · refine does_weaken (does_pure ()) (fun pos a pos' => ?_) (by omega)
        constructor
        · rintro ⟨_, rfl⟩
          exact ⟨by omega, [], fun h => absurd h (by simp), by simp; omega, by omega⟩
        · rintro ⟨_, _, _, _, rfl⟩
          exact ⟨rfl, by omega⟩
  · intro pos a pos'
    constructor
    · rintro ⟨v, mid, ⟨h1, h2, rfl⟩, h3, b, h4, h5, rfl⟩
      refine ⟨⟨v, b⟩, ?_, ⟨fun _ => h2, fun hb => ?_, trivial⟩, ?_⟩
      · unfold Clip.Known
        unfold compClipboardSize at h3 h5
        split at h5
        · next hv => exact .inr ⟨hv, h5⟩
        · exact .inl ⟨h5.symm, by dsimp only; rw [if_neg (by assumption)] at h3; omega⟩
      · rw [enc32_length]
        exact h4 hb
      · dsimp only; omega
    · rintro ⟨⟨v, b⟩, h2, ⟨h3, h4, _⟩, rfl⟩
      rw [enc32_length] at h3 h4
      have hv : v < 2 ^ 32 ∧ b.length = compClipboardSize v ∧ compClipboardSize v ≤ 0x190 := by
        unfold Clip.Known at h2
        unfold compClipboardSize
        rcases h2 with ⟨e1, e2⟩ | ⟨e1, e2⟩
        · dsimp only at e1 e2
          rw [if_neg (by omega)]
          omega
        · dsimp only at e1 e2
          rw [if_pos e1]
          omega
      exact ⟨v, pos + 4, ⟨hv.1, h3 (by omega), rfl⟩, hv.2.2, b, h4, hv.2.1, by dsimp only; omega⟩

theorem does_inside : Does f d (compInside d)
    (fun pos b pos' => b = decide (pos < d.size) ∧ pos' = pos) 0 := by
  refine ⟨fun s h base pos hp hb hs hl => ?_, fun pos b pos' h => by omega⟩
  have e : decide (s.offset < d.size) = decide (pos < d.size) := by
    rw [hp]; simp
  refine ⟨hs, rfl, ?_, fun b hb' => ?_, fun _ b pos' h => ?_, fun _ => trivial⟩
  · show h.live.Perm (compBlocks s ++ base)
    rw [hb]; exact hl
  · have : (Res.ok (decide (s.offset < d.size)) : Res Bool) = .ok b := hb'
    cases this
    exact ⟨hb, pos, hp, e, rfl⟩
  · obtain ⟨rfl, rfl⟩ := h
    exact ⟨congrArg Res.ok e, hp⟩

theorem does_marker (hf : WellFormedCtx f) (hd : EntryFits d) :
    Does f d (compMarker f d)
      (fun pos v pos' => d.size ≤ pos ∧ v = 0 ∧ pos' = pos ∨
        pos < d.size ∧ v < 2 ^ 32 ∧ RawAt f d pos (enc32 f.io.byteOrder v) ∧ pos' = pos + 4) 4 := by
  unfold compMarker
  refine does_weaken (does_bind does_inside
    (Q := fun b pos v pos' => if b then v < 2 ^ 32 ∧ RawAt f d pos (enc32 f.io.byteOrder v) ∧ pos' = pos + 4
      else v = 0 ∧ pos' = pos) (n' := 4) fun b _ => ?_) ?_ (by omega)
  · cases b with
    | true => simp only [if_true]; exact does_size hf hd
    | false =>
      simp only [Bool.false_eq_true, if_false]
      exact does_weaken (does_pure 0) (fun _ _ _ => .rfl) (by omega)
  · intro pos v pos'
    by_cases hp : pos < d.size
    · simp [hp, Nat.not_le.2 hp]
    · simp [hp, Nat.not_lt.1 hp]

/-- The Unicode strings. -/
def RunUnicode (f : FileCtx) (d : DirEntry) (pos pos' : Nat) : Prop :=
  ∃ (u : Bytes) (c : Clip) (r : Bytes), (Modest u ∧ c.Known ∧ Modest r) ∧
    Run f d pos [enc32 f.io.byteOrder u.length, u, enc32 f.io.byteOrder c.word, c.data,
      enc32 f.io.byteOrder r.length, r] ∧
    pos' = pos + (4 + u.length + (4 + c.data.length) + (4 + r.length))

theorem does_strings (hf : WellFormedCtx f) (hd : EntryFits d) :
    Does f d (do
        compString f d .userType
        compClipboard f d
        compString f d .reserved : CompMem Unit)
      (fun pos _ pos' => RunUnicode f d pos pos') (2 ^ 28 + 0x190 + 12) := by
  refine does_weaken (does_bind (does_string hf hd .userType) fun _ _ =>
    does_bind (does_clipboard hf hd) fun _ _ => does_string hf hd .reserved) ?_ (by omega)
  intro pos a pos'
  constructor
  · rintro ⟨_, mid, ⟨u, h1, h2, rfl⟩, _, mid', ⟨c, h3, h4, rfl⟩, r, h5, h6, rfl⟩
    refine ⟨u, c, r, ⟨h1, h3, h5⟩, ?_, by omega⟩
    simp only [Run, enc32_length, and_true] at h2 h4 h6 ⊢
    rw [show pos + (4 + u.length) = pos + 4 + u.length by omega] at h4 h6
    rw [show pos + 4 + u.length + (4 + c.data.length) = pos + 4 + u.length + 4 + c.data.length by omega] at h6
    exact ⟨h2.1, h2.2, h4.1, h4.2, h6.1, h6.2⟩
  · rintro ⟨u, c, r, ⟨h1, h3, h5⟩, h, rfl⟩
    simp only [Run, enc32_length, and_true] at h
    refine ⟨(), _, ⟨u, h1, ?_, rfl⟩, (), _, ⟨c, h3, ?_, rfl⟩, r, h5, ?_, by omega⟩
    all_goals
      simp only [Run, enc32_length, and_true]
      try rw [show pos + (4 + u.length) = pos + 4 + u.length by omega]
      try rw [show pos + 4 + u.length + (4 + c.data.length) = pos + 4 + u.length + 4 + c.data.length by omega]
    · exact ⟨h.1, h.2.1⟩
    · exact ⟨h.2.2.1, h.2.2.2.1⟩
    · exact ⟨h.2.2.2.2.1, h.2.2.2.2.2⟩

theorem does_unicode (hf : WellFormedCtx f) (hd : EntryFits d) (v : Nat) :
    Does f d (compUnicode f d v)
      (fun pos _ pos' => if pos < d.size ∧ v = 0x71b239f4 then RunUnicode f d pos pos' else pos' = pos)
      (2 ^ 28 + 0x190 + 12) := by
  unfold compUnicode
  refine does_weaken (does_bind does_inside
    (Q := fun b pos (_ : Unit) pos' => if b = true ∧ v = 0x71b239f4 then RunUnicode f d pos pos' else pos' = pos)
    (n' := 2 ^ 28 + 0x190 + 12) fun b _ => ?_) ?_ (by omega)
  · split
    · exact does_strings hf hd
    · refine does_weaken (does_pure ()) (fun pos a pos' => ?_) (by omega)
      exact ⟨fun h => h.2, fun h => ⟨rfl, h⟩⟩
  · intro pos a pos'
    constructor
    · rintro ⟨b, mid, ⟨rfl, rfl⟩, h⟩
      simpa using h
    · intro h
      exact ⟨_, _, ⟨rfl, rfl⟩, by simpa using h⟩

/-! ### The function -/

/-- The pieces that are read of what follows the reserved string. -/
def tailPieces (e : Endian) : CompTail → List Bytes
  | .nothing => []
  | .mark w => [enc32 e w]
  | .unicode u c r => [enc32 e 0x71b239f4, enc32 e u.length, u, enc32 e c.word, c.data,
      enc32 e r.length, r]

/-- The pieces that are read of a compound object. -/
def compPieces (e : Endian) (c : CompObj) : List Bytes :=
  [c.header, enc32 e c.userType.length, c.userType, enc32 e c.clip.word, c.clip.data,
    enc32 e c.reserved.length, c.reserved] ++ tailPieces e c.tail

theorem tailPieces_flatten (e : Endian) (t : CompTail) : (tailPieces e t).flatten = t.bytes e := by
  cases t <;> simp [tailPieces, CompTail.bytes, sized, Clip.bytes]

theorem compPieces_flatten (e : Endian) (c : CompObj) : (compPieces e c).flatten = c.bytes e := by
  simp [compPieces, CompObj.bytes, CompObj.start, sized, Clip.bytes, tailPieces_flatten]

theorem start_length (e : Endian) (c : CompObj) : (c.start e).length =
    c.header.length + (4 + c.userType.length + (4 + c.clip.data.length + (4 + c.reserved.length))) := by
  simp [CompObj.start, sized_length, clip_length]

theorem bytes_length (e : Endian) (c : CompObj) :
    (c.bytes e).length = (c.start e).length + (c.tail.bytes e).length := by
  simp [CompObj.bytes]

/-- The function succeeds from `pos` at `pos'`. -/
def CompRun (f : FileCtx) (d : DirEntry) (pos pos' : Nat) : Prop :=
  ∃ c : CompObj, c.Known f.io.byteOrder d.size pos ∧ Run f d pos (compPieces f.io.byteOrder c) ∧
    pos' = pos + (c.bytes f.io.byteOrder).length

/-- What follows the reserved string. -/
def TailRun (f : FileCtx) (d : DirEntry) (pos pos' : Nat) : Prop :=
  ∃ t : CompTail, (match t with
    | .nothing => d.size ≤ pos
    | .mark w => pos < d.size ∧ w < 2 ^ 32 ∧ (w = 0x71b239f4 → d.size ≤ pos + 4)
    | .unicode u k r => pos + 4 < d.size ∧ Modest u ∧ k.Known ∧ Modest r) ∧
    Run f d pos (tailPieces f.io.byteOrder t) ∧ pos' = pos + (t.bytes f.io.byteOrder).length

theorem does_tail (hf : WellFormedCtx f) (hd : EntryFits d) :
    Does f d (do
        let marker ← compMarker f d
        compUnicode f d marker : CompMem Unit)
      (fun pos _ pos' => TailRun f d pos pos') (2 ^ 28 + 0x190 + 16) := by
  refine does_weaken (does_bind (does_marker hf hd) fun v _ => does_unicode hf hd v) ?_ (by omega)
  intro pos a pos'
  constructor
  · rintro ⟨v, mid, (⟨h1, rfl, rfl⟩ | ⟨h1, h2, h3, rfl⟩), h4⟩
    · rw [if_neg (by omega)] at h4
      subst h4
      exact ⟨.nothing, h1, trivial, rfl⟩
    · split at h4
      · next hv =>
        obtain ⟨hv1, rfl⟩ := hv
        obtain ⟨u, c, r, h5, h6, rfl⟩ := h4
        refine ⟨.unicode u c r, ⟨hv1, h5⟩, ⟨fun _ => h3, ?_⟩, ?_⟩
        · rw [enc32_length]
          exact h6
        · simp [CompTail.bytes, sized_length, clip_length]
          omega
      · subst h4
        refine ⟨.mark v, ⟨h1, h2, fun hv => by omega⟩, ⟨fun _ => h3, trivial⟩, ?_⟩
        simp [CompTail.bytes]
  · rintro ⟨t, h1, h2, rfl⟩
    cases t with
    | nothing =>
      refine ⟨0, pos, .inl ⟨h1, rfl, rfl⟩, ?_⟩
      rw [if_neg (by omega)]
      rfl
    | mark w =>
      obtain ⟨h1, h3, h4⟩ := h1
      refine ⟨w, pos + 4, .inr ⟨h1, h3, h2.1 (by simp), rfl⟩, ?_⟩
      rw [if_neg (by omega)]
      simp [CompTail.bytes]
    | unicode u c r =>
      obtain ⟨h1, h3⟩ := h1
      refine ⟨0x71b239f4, pos + 4, .inr ⟨by omega, by omega, h2.1 (by simp), rfl⟩, ?_⟩
      rw [if_pos ⟨h1, rfl⟩]
      refine ⟨u, c, r, h3, ?_, ?_⟩
      · have := h2.2
        rw [enc32_length] at this
        exact this
      · simp [CompTail.bytes, sized_length, clip_length]
        omega

theorem does_body (hf : WellFormedCtx f) (hd : EntryFits d) :
    Does f d (compBody f d) (fun pos _ pos' => CompRun f d pos pos') (2 ^ 29 + 2 ^ 10) := by
  unfold compBody
  refine does_weaken (does_bind (does_read hf hd 28) fun _ _ =>
    does_bind (does_userType hf hd) fun _ _ => does_bind (does_clipboard hf hd) fun _ _ =>
    does_bind (does_string hf hd .reserved) fun _ _ => does_tail hf hd) ?_ (by omega)
  intro pos a pos'
  constructor
  · rintro ⟨hdr, m1, ⟨h1, h2, rfl⟩, _, m2, ⟨u, h3, h4, rfl⟩, _, m3, ⟨c, h5, h6, rfl⟩, _, m4,
      ⟨r, h7, h8, rfl⟩, t, h9, h10, rfl⟩
    have hst : ((CompObj.mk hdr u c r t).start f.io.byteOrder).length =
        28 + (4 + u.length) + (4 + c.data.length) + (4 + r.length) := by
      rw [start_length]; dsimp only; omega
    refine ⟨⟨hdr, u, c, r, t⟩, ⟨h2, h3, h5, h7, ?_⟩, ?_, ?_⟩
    · dsimp only
      rw [hst, show pos + (28 + (4 + u.length) + (4 + c.data.length) + (4 + r.length)) =
        pos + 28 + (4 + u.length) + (4 + c.data.length) + (4 + r.length) by omega]
      exact h9
    · unfold compPieces
      rw [run_append]
      refine ⟨?_, ?_⟩
      · simp only [Run, enc32_length, and_true] at h4 h6 h8 ⊢
        rw [h2]
        rw [show pos + 28 + (4 + u.length) = pos + 28 + 4 + u.length by omega] at h6 h8
        rw [show pos + 28 + 4 + u.length + (4 + c.data.length) =
          pos + 28 + 4 + u.length + 4 + c.data.length by omega] at h8
        exact ⟨fun _ => h1, h4.1, h4.2, h6.1, h6.2, h8.1, h8.2⟩
      · have e : (List.flatten [hdr, enc32 f.io.byteOrder u.length, u, enc32 f.io.byteOrder c.word,
            c.data, enc32 f.io.byteOrder r.length, r]).length =
            28 + (4 + u.length) + (4 + c.data.length) + (4 + r.length) := by
          simp [h2]; omega
        dsimp only
        rw [e, show pos + (28 + (4 + u.length) + (4 + c.data.length) + (4 + r.length)) =
          pos + 28 + (4 + u.length) + (4 + c.data.length) + (4 + r.length) by omega]
        exact h10
    · rw [bytes_length, hst]
      dsimp only
      omega
  · rintro ⟨⟨hdr, u, c, r, t⟩, ⟨h2, h3, h5, h7, h9⟩, h, rfl⟩
    dsimp only at h2 h3 h5 h7
    have hst : ((CompObj.mk hdr u c r t).start f.io.byteOrder).length =
        28 + (4 + u.length) + (4 + c.data.length) + (4 + r.length) := by
      rw [start_length]; dsimp only; omega
    unfold compPieces at h
    rw [run_append] at h
    obtain ⟨h, h10⟩ := h
    have e : (List.flatten [hdr, enc32 f.io.byteOrder u.length, u, enc32 f.io.byteOrder c.word,
        c.data, enc32 f.io.byteOrder r.length, r]).length =
        28 + (4 + u.length) + (4 + c.data.length) + (4 + r.length) := by
      simp [h2]; omega
    dsimp only at h10 h9
    rw [e, show pos + (28 + (4 + u.length) + (4 + c.data.length) + (4 + r.length)) =
      pos + 28 + (4 + u.length) + (4 + c.data.length) + (4 + r.length) by omega] at h10
    rw [hst, show pos + (28 + (4 + u.length) + (4 + c.data.length) + (4 + r.length)) =
      pos + 28 + (4 + u.length) + (4 + c.data.length) + (4 + r.length) by omega] at h9
    simp only [Run, enc32_length, and_true, h2] at h
    refine ⟨hdr, _, ⟨h.1 (by omega), h2, rfl⟩, (), _, ⟨u, h3, ?_, rfl⟩, (), _, ⟨c, h5, ?_, rfl⟩,
      (), _, ⟨r, h7, ?_, rfl⟩, t, h9, h10, ?_⟩
    · simp only [Run, enc32_length, and_true]
      exact ⟨h.2.1, h.2.2.1⟩
    · simp only [Run, enc32_length, and_true]
      rw [show pos + 28 + (4 + u.length) = pos + 28 + 4 + u.length by omega]
      exact ⟨h.2.2.2.1, h.2.2.2.2.1⟩
    · simp only [Run, enc32_length, and_true]
      rw [show pos + 28 + (4 + u.length) + (4 + c.data.length) =
          pos + 28 + 4 + u.length + 4 + c.data.length by omega]
      exact ⟨h.2.2.2.2.2.1, h.2.2.2.2.2.2⟩
    · rw [bytes_length, hst]
      dsimp only
      omega

theorem compCleanup_spec {s : CompLocals} {h : Heap} {base : List Nat} (hs : Sound h)
    (hl : h.live.Perm (compBlocks s ++ base)) :
    (compCleanup s h).1 = .ok () ∧ (compCleanup s h).2.1 = s ∧ Sound (compCleanup s h).2.2 ∧
      (compCleanup s h).2.2.grant = h.grant ∧ (compCleanup s h).2.2.live.Perm base := by
  have hrel : ∀ (b : Option Nat) (t : CompLocals) (g : Heap) (base : List Nat), Sound g →
      g.live.Perm (b.toList ++ base) → (Mem.releaseOpt b t g).1 = .ok () ∧
        (Mem.releaseOpt b t g).2.1 = t ∧ Sound (Mem.releaseOpt b t g).2.2 ∧
        (Mem.releaseOpt b t g).2.2.grant = g.grant ∧ (Mem.releaseOpt b t g).2.2.live.Perm base := by
    intro b t g base hg hp
    cases b with
    | none => exact ⟨rfl, rfl, hg, rfl, hp⟩
    | some b =>
      have hm : b ∈ g.live := hp.mem_iff.2 (by simp)
      show (Mem.release b t g).1 = .ok () ∧ (Mem.release b t g).2.1 = t ∧
        Sound (Mem.release b t g).2.2 ∧ (Mem.release b t g).2.2.grant = g.grant ∧
        (Mem.release b t g).2.2.live.Perm base
      unfold Mem.release
      rw [if_pos hm]
      refine ⟨rfl, rfl, ⟨hg.good, hg.nodup.erase _, fun c hc => hg.old c (List.mem_of_mem_erase hc)⟩, rfl, ?_⟩
      have := hp.erase b
      simpa using this
  unfold compCleanup
  have hl1 : h.live.Perm (s.reserved.toList ++ (s.clipboard.toList ++ (s.userType.toList ++ base))) := by
    refine hl.trans ?_
    unfold compBlocks
    rw [← List.append_assoc, ← List.append_assoc]
    refine List.Perm.append_right _ ?_
    refine List.perm_append_comm.trans ?_
    rw [List.append_assoc]
    exact List.Perm.append_left _ List.perm_append_comm
  obtain ⟨a1, a2, a3, a4, a5⟩ := hrel s.reserved s h _ hs hl1
  rw [mem_bind]
  unfold Mem.bind
  revert a1 a2 a3 a4 a5
  rcases Mem.releaseOpt s.reserved s h with ⟨r1, s1, h1⟩
  rintro rfl rfl a3 a4 a5
  dsimp only at a3 a4 a5 ⊢
  obtain ⟨b1, b2, b3, b4, b5⟩ := hrel s1.clipboard s1 h1 _ a3 a5
  rw [mem_bind]
  unfold Mem.bind
  revert b1 b2 b3 b4 b5
  rcases hr : Mem.releaseOpt s1.clipboard s1 h1 with ⟨r2, s2, h2⟩
  rintro rfl rfl b3 b4 b5
  dsimp only at b3 b4 b5 ⊢
  obtain ⟨c1, c2, c3, c4, c5⟩ := hrel s2.userType s2 h2 _ b3 b5
  exact ⟨c1, c2, c3, c4.trans (b4.trans a4), c5⟩

/-- What the function does. -/
theorem compObject_spec (hf : WellFormedCtx f) (hd : EntryFits d) (pos : Nat) (h : Heap) (hs : Sound h) :
    Sound (compObjectRead f d pos h).2.2 ∧
    ((compObjectRead f d pos h).1.Defined → SameBlocks h (compObjectRead f d pos h).2.2) ∧
    ((compObjectRead f d pos h).1 = .ok () →
      ∃ pos' : Nat, (compObjectRead f d pos h).2.1 = pos' ∧ CompRun f d pos pos') ∧
    (Ample h → ∀ pos' : Nat, CompRun f d pos pos' →
      (compObjectRead f d pos h).1 = .ok () ∧ (compObjectRead f d pos h).2.1 = pos') ∧
    (CompReach f d pos → (compObjectRead f d pos h).1.Defined) := by
  obtain ⟨h1, h2, h3, h4, h5, h6⟩ := (does_body hf hd).run ⟨pos, none, none, none⟩ h h.live pos rfl rfl
    hs (.refl _)
  unfold compObjectRead Mem.onError
  have hreach : CompReach f d pos → WithinReach f d (pos + (2 ^ 29 + 2 ^ 10)) := by
    intro hr
    refine ⟨by have := hr.1; omega, ?_⟩
    have h2 := hr.2
    have : INT_MAX = 2 ^ 31 - 1 := by decide
    rw [this]
    omega
  revert h1 h2 h3 h4 h5 h6
  rcases compBody f d ⟨pos, none, none, none⟩ h with ⟨r, s', h'⟩
  intro h1 h2 h3 h4 h5 h6
  dsimp only at h1 h2 h3 h4 h5 h6
  cases r with
  | ok a =>
    obtain ⟨hb, pos', hp, hP⟩ := h4 a rfl
    rw [hb] at h3
    exact ⟨h1, fun _ => h3, fun _ => ⟨pos', hp, hP⟩, fun ha q hq => ⟨rfl, (h5 ha () q hq).2⟩, fun _ => trivial⟩
  | err =>
    obtain ⟨c1, c2, c3, c4, c5⟩ := compCleanup_spec h1 h3
    dsimp only
    unfold Mem.bind
    revert c1 c2 c3 c4 c5
    rcases compCleanup s' h' with ⟨r2, s2, h2⟩
    rintro rfl rfl c3 c4 c5
    exact ⟨c3, fun _ => c5, fun h => (by cases h), fun ha q hq => absurd (h5 ha () q hq).1 (by simp),
      fun _ => trivial⟩
  | ub =>
    exact ⟨h1, fun h => h.elim, fun h => (by cases h), fun ha q hq => absurd (h5 ha () q hq).1 (by simp),
      fun hr => h6 (hreach hr)⟩
  | hang =>
    exact ⟨h1, fun h => h.elim, fun h => (by cases h), fun ha q hq => absurd (h5 ha () q hq).1 (by simp),
      fun hr => h6 (hreach hr)⟩

/-! ### Streams with known content -/

theorem rawAt_iff {data : Bytes} (hs : StreamHolds f d data) {pos : Nat} {b : Bytes}
    (hb : 0 < b.length) (hle : pos + b.length ≤ data.length) (hsz : data.length ≤ 2 ^ 63 - 1) :
    RawAt f d pos b ↔ Piece data pos b := by
  have hr := hs.reads pos b.length (by omega)
  have hss : SSIZE_MAX = 2 ^ 63 - 1 := by decide
  unfold streamRead at hr
  rw [if_neg (by rw [hs.isStream]; simp), if_neg (by omega), if_neg (by omega),
    if_neg (by rw [hs.size]; omega)] at hr
  dsimp only at hr
  rw [if_neg (by rw [hs.size]; omega)] at hr
  have hp : (data.drop pos).take b.length = b ↔ Piece data pos b := by
    constructor
    · intro h
      refine ⟨data.take pos, data.drop (pos + b.length), ?_, by simp; omega⟩
      conv_rhs => lhs; rhs; rw [← h]
      rw [List.append_assoc, ← List.drop_drop, List.take_append_drop, List.take_append_drop]
    · rintro ⟨x, y, rfl, rfl⟩
      simp
  rw [← hp]
  unfold RawAt
  generalize hout : (readStream f d pos b.length).res = r at hr
  cases r with
  | ok v =>
    obtain ⟨v, o⟩ := v
    have ho := readStream_off hout
    subst ho
    dsimp only at hr
    split at hr
    · cases hr
    · have hr' : v = (data.drop pos).take b.length := by
        have : (Res.ok v : Res Bytes) = .ok ((data.drop pos).take b.length) := hr
        injection this
      rw [← hr']
      constructor
      · intro h; cases h; rfl
      · rintro rfl; rfl
  | err => cases hr
  | ub => cases hr
  | hang => cases hr

theorem run_iff {data : Bytes} (hs : StreamHolds f d data) (hsz : data.length ≤ 2 ^ 63 - 1) :
    ∀ (bs : List Bytes) (pos : Nat), pos + bs.flatten.length ≤ data.length →
      (Run f d pos bs ↔ Piece data pos bs.flatten)
  | [], pos, hle => by
    simp only [Run, List.flatten_nil, true_iff]
    simp at hle
    exact ⟨data.take pos, data.drop pos, by simp, by simp; omega⟩
  | b :: bs, pos, hle => by
    rw [List.flatten_cons, List.length_append] at hle
    unfold Run
    rw [run_iff hs hsz bs (pos + b.length) (by omega), List.flatten_cons]
    constructor
    · rintro ⟨h1, x, y, e, hx⟩
      rcases Nat.eq_zero_or_pos b.length with hz | hz
      · have : b = [] := List.eq_nil_of_length_eq_zero hz
        subst this
        exact ⟨x, y, by simpa using e, by simpa using hx⟩
      · obtain ⟨x', y', e', hx'⟩ := (rawAt_iff hs hz (by omega) hsz).1 (h1 hz)
        have : x = x' ++ b := by
          have h1 : data.take (pos + b.length) = x := by rw [e, ← hx, List.append_assoc]; simp
          have h2 : data.take (pos + b.length) = x' ++ b := by
            rw [e', ← hx', ← List.length_append]; exact List.take_left
          rw [← h1, h2]
        subst this
        exact ⟨x', y, by rw [e]; simp, hx'⟩
    · intro h
      exact ⟨fun hz => (rawAt_iff hs hz (by omega) hsz).2 h.left, h.right⟩

theorem compRun_iff {data : Bytes} (hs : StreamHolds f d data) (hsz : data.length ≤ 2 ^ 63 - 1)
    {pos pos' : Nat} (hle : pos' ≤ data.length) :
    CompRun f d pos pos' ↔ ∃ (c : CompObj) (rest : Bytes), c.Known f.io.byteOrder data.length pos ∧
      data.drop pos = c.bytes f.io.byteOrder ++ rest ∧ pos' = pos + (c.bytes f.io.byteOrder).length := by
  unfold CompRun
  rw [hs.size]
  refine exists_congr fun c => ?_
  constructor
  · rintro ⟨h1, h2, rfl⟩
    rw [run_iff hs hsz _ _ (by rw [compPieces_flatten]; exact hle), compPieces_flatten] at h2
    obtain ⟨x, y, e, hx⟩ := h2
    refine ⟨y, h1, ?_, rfl⟩
    rw [e, ← hx, List.append_assoc]
    simp
  · rintro ⟨rest, h1, h2, rfl⟩
    refine ⟨h1, ?_, rfl⟩
    rw [run_iff hs hsz _ _ (by rw [compPieces_flatten]; exact hle), compPieces_flatten]
    refine ⟨data.take pos, rest, ?_, by simp; omega⟩
    rw [List.append_assoc, ← h2, List.take_append_drop]

end Lemmas
end Olecf
