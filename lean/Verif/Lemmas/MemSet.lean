import Verif.Lemmas.Memory

/-! The memory of property sets. -/

namespace Olecf
namespace Lemmas

open Olecf.Spec

variable {exc : List Nat → Prop}

theorem freeFValue_triple (v : MFValue) (fr : List Nat) :
    Triple (fvalueBlocks v ++ fr) (freeFValue v) (fun _ => fr) exc := by
  unfold freeFValue fvalueBlocks
  refine triple_bind (triple_use (by simp)) fun _ => ?_
  refine triple_bind (mid := fun _ => v.block :: fr) ?_ fun _ => triple_release_head
  refine triple_weaken (triple_releaseOpt (b := v.data) (pre := v.block :: fr) (exc := exc)) ?_
    (fun _ => .refl _) (fun _ h => h)
  exact List.perm_middle.symm

theorem freeValue_triple (v : MValue) (fr : List Nat) :
    Triple (valueBlocks v ++ fr) (freeValue v) (fun _ => fr) exc := by
  unfold freeValue valueBlocks
  refine triple_bind (triple_use (by simp)) fun _ => ?_
  cases v.data with
  | none => exact triple_release_head
  | some d =>
    refine triple_bind (mid := fun _ => v.block :: fr) ?_ fun _ => triple_release_head
    refine triple_weaken (freeFValue_triple d (v.block :: fr)) ?_ (fun _ => .refl _) (fun _ h => h)
    exact List.perm_middle.symm

theorem freeSection_triple (s : MSection) (fr : List Nat) :
    Triple (sectionBlocks s ++ fr) (freeSection s) (fun _ => fr) exc := by
  unfold freeSection sectionBlocks
  refine triple_bind (triple_use (by simp)) fun _ => ?_
  refine triple_bind (triple_use (by simp)) fun _ => ?_
  refine triple_bind (mid := fun _ => s.array :: s.block :: fr) ?_ fun _ =>
    triple_bind triple_release_head fun _ => triple_release_head
  refine triple_weaken (triple_forEach freeValue_triple s.values (s.array :: s.block :: fr)) ?_
    (fun _ => .refl _) (fun _ h => h)
  simp only [List.cons_append]
  refine (List.Perm.swap _ _ _).trans ?_
  exact (List.Perm.cons _ List.perm_middle.symm).trans List.perm_middle.symm

theorem freeSet_triple (s : MSet) (fr : List Nat) :
    Triple (setBlocks s ++ fr) (freeSet s) (fun _ => fr) exc := by
  unfold freeSet setBlocks
  refine triple_bind (triple_use (by simp)) fun _ => ?_
  refine triple_bind (triple_use (by simp)) fun _ => ?_
  refine triple_bind (mid := fun _ => s.array :: s.block :: fr) ?_ fun _ =>
    triple_bind triple_release_head fun _ => triple_release_head
  refine triple_weaken (triple_forEach freeSection_triple s.sections (s.array :: s.block :: fr)) ?_
    (fun _ => .refl _) (fun _ h => h)
  simp only [List.cons_append]
  refine (List.Perm.swap _ _ _).trans ?_
  exact (List.Perm.cons _ List.perm_middle.symm).trans List.perm_middle.symm

theorem quiet_freeFValue (v : MFValue) : Quiet (freeFValue v) :=
  quiet_bind (quiet_use _) (quiet_bind (quiet_releaseOpt _) (quiet_release _))

theorem quiet_freeValue (v : MValue) : Quiet (freeValue v) := by
  unfold freeValue
  refine quiet_bind (quiet_use _) ?_
  cases v.data with
  | none => exact quiet_release _
  | some d => exact quiet_bind (quiet_freeFValue d) (quiet_release _)

theorem quiet_freeSection (s : MSection) : Quiet (freeSection s) :=
  quiet_bind (quiet_use _) (quiet_bind (quiet_use _) (quiet_bind
    (quiet_forEach quiet_freeValue _) (quiet_bind (quiet_release _) (quiet_release _))))

theorem quiet_freeSet (s : MSet) : Quiet (freeSet s) :=
  quiet_bind (quiet_use _) (quiet_bind (quiet_use _) (quiet_bind
    (quiet_forEach quiet_freeSection _) (quiet_bind (quiet_release _) (quiet_release _))))

theorem memMultiLoop_triple (f : FileCtx) (d : DirEntry) (e : Endian) (fr : List Nat) :
    ∀ n offset, Triple fr (memMultiLoop f d e n offset) (fun _ => fr) (·.Perm fr)
  | 0, _ => triple_pure (.refl _)
  | n + 1, offset => by
    unfold memMultiLoop
    split
    · exact triple_fail (.refl _)
    · refine triple_bind (triple_lift (.refl _)) fun b => ?_
      refine triple_bind (triple_of (.refl _)) fun size => ?_
      split
      · exact triple_fail (.refl _)
      · split
        · exact triple_fail (.refl _)
        · refine triple_bind (triple_alloc (.refl _)) fun data => ?_
          refine triple_bind (mid := fun _ => data :: fr) ?_ fun _ => ?_
          · exact triple_onError_eq (l' := fr) (triple_lift (.refl _)) (.refl _) triple_release_head
          · exact triple_bind triple_release_head fun _ => memMultiLoop_triple f d e fr n _

theorem memMakeValue_triple (data : Option Nat) (v : FValue) (fr : List Nat) :
    Triple (data.toList ++ fr) (memMakeValue data v) (fun v => fvalueBlocks v ++ fr) (·.Perm fr) := by
  unfold memMakeValue
  refine triple_bind (mid := fun b => b :: (data.toList ++ fr)) ?_ fun block => ?_
  · exact triple_onError_eq (l' := fr) (triple_alloc (.refl _)) (.refl _) triple_releaseOpt
  · cases data with
    | none => exact triple_pure (.refl _)
    | some b =>
      refine triple_bind (mid := fun _ => block :: b :: fr) ?_ fun _ => triple_pure (.refl _)
      refine triple_onError_eq (l' := fr) (triple_ask (.refl _)) (.refl _) ?_
      exact triple_bind triple_release_head fun _ => triple_release_head

theorem asciiSize_spec (data : Bytes) (size : Nat) : ∀ fuel i,
    asciiSize data size fuel i = .ub ∨ ∃ n, asciiSize data size fuel i = .ok n ∧ i ≤ n ∧
      (0 < fuel → i < size → i < n)
  | 0, i => .inr ⟨i, rfl, Nat.le_refl _, fun h => absurd h (by omega)⟩
  | fuel + 1, i => by
    unfold asciiSize
    split
    · cases hb : rdByte data i with
      | ok c =>
        simp only [Res.ok_bind]
        split
        · exact .inr ⟨i + 1, rfl, by omega, fun _ _ => by omega⟩
        · rcases asciiSize_spec data size fuel (i + 1) with h | ⟨n, h, hn, -⟩
          · exact .inl h
          · exact .inr ⟨n, h, by omega, fun _ _ => by omega⟩
      | err => exact absurd hb (by unfold rdByte; split <;> simp)
      | ub => exact .inl rfl
      | hang => exact absurd hb (by unfold rdByte; split <;> simp)
    · exact .inr ⟨i, rfl, Nat.le_refl _, fun _ h => absurd h (by omega)⟩

theorem unicodeSize_spec (data : Bytes) (size : Nat) : ∀ fuel i,
    unicodeSize data size fuel i = .ub ∨ ∃ n, unicodeSize data size fuel i = .ok n ∧ i ≤ n ∧
      (0 < fuel → i < size → i < n)
  | 0, i => .inr ⟨i, rfl, Nat.le_refl _, fun h => absurd h (by omega)⟩
  | fuel + 1, i => by
    unfold unicodeSize
    split
    · cases hb : rdByte data i with
      | ok c =>
        simp only [Res.ok_bind]
        have step : unicodeSize data size fuel (i + 2) = .ub ∨
            ∃ n, unicodeSize data size fuel (i + 2) = .ok n ∧ i ≤ n ∧
              (0 < fuel + 1 → i < size → i < n) := by
          rcases unicodeSize_spec data size fuel (i + 2) with h | ⟨n, h, hn, -⟩
          · exact .inl h
          · exact .inr ⟨n, h, by omega, fun _ _ => by omega⟩
        split
        · cases hb' : rdByte data (i + 1) with
          | ok c =>
            simp only [Res.ok_bind]
            split
            · exact .inr ⟨i + 2, rfl, by omega, fun _ _ => by omega⟩
            · exact step
          | err => exact absurd hb' (by unfold rdByte; split <;> simp)
          | ub => exact .inl rfl
          | hang => exact absurd hb' (by unfold rdByte; split <;> simp)
        · exact step
      | err => exact absurd hb (by unfold rdByte; split <;> simp)
      | ub => exact .inl rfl
      | hang => exact absurd hb (by unfold rdByte; split <;> simp)
    · exact .inr ⟨i, rfl, Nat.le_refl _, fun _ h => absurd h (by omega)⟩

/-- The size that is kept of data is never zero. -/
theorem keptSize_pos (type : Nat) (data : Bytes) (size : Nat) (hs : 0 < size) :
    keptSize type data size = .ub ∨ ∃ n, keptSize type data size = .ok n ∧ 0 < n := by
  unfold keptSize
  split
  · rcases asciiSize_spec data size (size + 1) 0 with h | ⟨n, h, -, hn⟩
    · exact .inl h
    · exact .inr ⟨n, h, hn (by omega) hs⟩
  · split
    · rcases unicodeSize_spec data size (size + 1) 0 with h | ⟨n, h, -, hn⟩
      · exact .inl h
      · exact .inr ⟨n, h, hn (by omega) hs⟩
    · exact .inr ⟨size, rfl, hs⟩

theorem memReadValueData_triple (f : FileCtx) (d : DirEntry) (e : Endian) (type size : Nat)
    (fr : List Nat) :
    Triple fr (memReadValueData f d e type size) (fun v => fvalueBlocks v ++ fr) (·.Perm fr) := by
  unfold memReadValueData
  split
  · exact memMakeValue_triple none _ fr
  · dsimp only
    split
    · exact triple_fail (.refl _)
    · rename_i hsz
      refine triple_bind (triple_alloc (.refl _)) fun block => ?_
      refine triple_bind (mid := fun _ => block :: fr) ?_ fun data => ?_
      · exact triple_onError_eq (l' := fr) (triple_lift (.refl _)) (.refl _) triple_release_head
      · have hk := keptSize_pos type data (dataSize type size) (by omega)
        refine triple_bind_of (fun h => ?_) fun n hn => ?_
        · rcases hk with h' | ⟨n, h', -⟩ <;> rw [h'] at h <;> cases h
        · have hn0 : n > 0 := by
            rcases hk with h' | ⟨n', h', hp⟩
            · rw [h'] at hn; cases hn
            · rw [h'] at hn; cases hn; exact hp
          rw [if_pos hn0]
          refine triple_bind_of (fun h => ?_) fun bs hbs => ?_
          · exact absurd h (by unfold rdBytes; split <;> simp)
          · exact memMakeValue_triple (some block) _ fr

theorem memReadValue_triple (f : FileCtx) (d : DirEntry) (e : Endian) (offset : Nat)
    (fr : List Nat) :
    Triple fr (memReadValue f d e offset)
      (fun v => (match v.2 with | some d => fvalueBlocks d | none => []) ++ fr) (·.Perm fr) := by
  unfold memReadValue
  split
  · exact triple_fail (.refl _)
  · refine triple_bind (triple_lift (.refl _)) fun _ => ?_
    refine triple_bind (triple_lift (.refl _)) fun b => ?_
    refine triple_bind (triple_of (.refl _)) fun type => ?_
    split
    · split
      · exact triple_fail (.refl _)
      · refine triple_bind (triple_lift (.refl _)) fun _ => ?_
        refine triple_bind (triple_of (.refl _)) fun n => ?_
        refine triple_bind (memMultiLoop_triple f d e fr n _) fun _ => ?_
        exact triple_pure (.refl _)
    · exact triple_pure (.refl _)
    · refine triple_bind (memReadValueData_triple f d e type _ fr) fun v => ?_
      exact triple_pure (.refl _)
    · refine triple_bind (triple_lift (.refl _)) fun _ => ?_
      refine triple_bind (triple_of (.refl _)) fun n => ?_
      refine triple_bind (memReadValueData_triple f d e type _ fr) fun v => ?_
      exact triple_pure (.refl _)

theorem memReadProperty_triple (f : FileCtx) (d : DirEntry) (e : Endian) (section_ : Nat)
    (entry : Int) (fr : List Nat) :
    Triple fr (memReadProperty f d e section_ entry) (fun r => valueBlocks r.1 ++ fr)
      (·.Perm fr) := by
  unfold memReadProperty
  refine triple_bind (triple_lift (.refl _)) fun _ => ?_
  refine triple_bind (triple_alloc (.refl _)) fun block => ?_
  refine triple_bind (mid := fun _ => block :: fr) ?_ fun r => ?_
  · refine triple_onError_eq (l' := fr) (pre' := block :: fr) ?_ (.refl _) triple_release_head
    refine triple_bind (triple_lift (.refl _)) fun r => ?_
    obtain ⟨id, off⟩ := r
    dsimp only
    split
    · exact triple_fail (.refl _)
    · refine triple_bind (triple_lift (.refl _)) fun _ => ?_
      exact triple_pure (.refl _)
  · refine triple_bind (triple_onError_eq (l' := fr) (memReadValue_triple f d e _ (block :: fr))
      (.refl _) triple_release_head) fun v => ?_
    dsimp only
    have hp : ((match v.2 with | some d => fvalueBlocks d | none => []) ++ block :: fr).Perm
        (valueBlocks ⟨r.1, v.1, block, v.2⟩ ++ fr) := List.perm_middle
    refine triple_bind (mid := fun _ => valueBlocks ⟨r.1, v.1, block, v.2⟩ ++ fr) ?_ fun _ =>
      triple_pure (.refl _)
    refine triple_weaken ?_ hp (fun _ => .refl _) (fun _ h => h)
    exact triple_onError_eq (l' := fr) (triple_ask (.refl _)) (.refl _) (freeValue_triple _ fr)

theorem memPropsLoop_triple (f : FileCtx) (d : DirEntry) (e : Endian) (section_ : Nat)
    (fr : List Nat) : ∀ n entry values,
    Triple (values.flatMap valueBlocks ++ fr) (memPropsLoop f d e section_ n entry values)
      (fun r => r.1.flatMap valueBlocks ++ fr) exc
  | 0, _, _ => triple_pure (.refl _)
  | n + 1, entry, values => by
    unfold memPropsLoop
    refine triple_bind (triple_attempt (memReadProperty_triple f d e section_ entry _)) fun r => ?_
    cases r with
    | none => exact triple_pure (.refl _)
    | some r =>
      dsimp only
      refine triple_weaken (memPropsLoop_triple f d e section_ fr n r.2 (values ++ [r.1])) ?_
        (fun _ => .refl _) (fun _ h => h)
      simp only [Option.elim, List.flatMap_append, List.flatMap_cons, List.flatMap_nil,
        List.append_nil, ← List.append_assoc]
      exact List.perm_append_comm.append_right fr

theorem memReadSection_triple (f : FileCtx) (d : DirEntry) (e : Endian) (offset : Nat)
    (fr : List Nat) :
    Triple fr (memReadSection f d e offset) (fun r => r.1.flatMap valueBlocks ++ fr) exc := by
  unfold memReadSection
  refine triple_bind (mid := fun _ => fr) ?_ fun r => ?_
  · refine triple_weaken (triple_attempt (l' := fr) (post := fun _ => fr) (exc := exc) ?_) (.refl _)
      (fun o => ?_) (fun _ h => h)
    · refine triple_bind (triple_lift (.refl _)) fun _ => ?_
      refine triple_bind (triple_lift (.refl _)) fun _ => ?_
      exact triple_of (.refl _)
    · cases o <;> exact .refl _
  · cases r with
    | none => exact triple_pure (.refl _)
    | some n => exact memPropsLoop_triple f d e offset fr n _ []

theorem memInitialize_triple (fr : List Nat) :
    Triple fr memInitialize (fun r => r.1 :: r.2 :: fr) (·.Perm fr) := by
  unfold memInitialize
  refine triple_bind (triple_alloc (.refl _)) fun block => ?_
  refine triple_bind (mid := fun a => a :: block :: fr) ?_ fun a => triple_pure (.swap _ _ _)
  exact triple_onError_eq (l' := fr) (triple_alloc (.refl _)) (.refl _) triple_release_head

/-- What a failed iteration of the loop over the sections leaves behind. -/
def Leak (fr l : List Nat) : Prop := ∃ s : MSection, l.Perm (sectionBlocks s ++ fr)

/-- The iteration after the section was made. -/
def memReadSectionBody (f : FileCtx) (d : DirEntry) (e : Endian) (entry : Int) (p : Nat × Nat) :
    SetMem (MSection × Int) := do
  let (cls, off, entry) ← (do
    readerStep (seekTo d entry)
    let (cls, off) ← readerStep (readSectionEntry f d e)
    let entry ← readerStep (tell d)
    pure (cls, off, entry) : SetMem (Bytes × Nat × Int)).onError (freeSectionPublic p.1)
  let (values, ok) ← memReadSection f d e off
  (do
    if ok then Mem.ask else .fail).onError (freeSectionPublic p.1)
  pure (⟨cls, p.1, p.2, values⟩, entry)

theorem memReadSectionEntry_eq (f : FileCtx) (d : DirEntry) (e : Endian) (entry : Int) :
    memReadSectionEntry f d e entry = (memInitialize >>= memReadSectionBody f d e entry) := rfl

theorem memReadSectionBody_triple (f : FileCtx) (d : DirEntry) (e : Endian) (entry : Int)
    (p : Nat × Nat) (fr : List Nat) :
    Triple (p.1 :: p.2 :: fr) (memReadSectionBody f d e entry p)
      (fun r => sectionBlocks r.1 ++ fr) (Leak fr) := by
  unfold memReadSectionBody
  refine triple_bind (mid := fun _ => p.1 :: p.2 :: fr) ?_ fun r => ?_
  · refine triple_onError_eq (pre' := p.1 :: p.2 :: fr) (l' := p.1 :: p.2 :: fr) ?_
      ⟨⟨[], p.1, p.2, []⟩, .refl _⟩ (triple_pure (.refl _))
    refine triple_bind (triple_lift (.refl _)) fun _ => ?_
    refine triple_bind (triple_lift (.refl _)) fun _ => ?_
    refine triple_bind (triple_lift (.refl _)) fun _ => triple_pure (.refl _)
  · refine triple_bind (memReadSection_triple f d e _ _) fun v => ?_
    have hp : (v.1.flatMap valueBlocks ++ p.1 :: p.2 :: fr).Perm
        (sectionBlocks ⟨r.1, p.1, p.2, v.1⟩ ++ fr) := by
      refine List.perm_middle.trans (List.Perm.cons _ ?_)
      exact List.perm_middle
    refine triple_bind (mid := fun _ => sectionBlocks ⟨r.1, p.1, p.2, v.1⟩ ++ fr) ?_ fun _ =>
      triple_pure (.refl _)
    refine triple_onError_eq (pre' := sectionBlocks ⟨r.1, p.1, p.2, v.1⟩ ++ fr) ?_
      ⟨_, .refl _⟩ (triple_pure (.refl _))
    refine triple_weaken (pre := sectionBlocks ⟨r.1, p.1, p.2, v.1⟩ ++ fr)
      (exc := (·.Perm (sectionBlocks ⟨r.1, p.1, p.2, v.1⟩ ++ fr)))
      (post := fun _ => sectionBlocks ⟨r.1, p.1, p.2, v.1⟩ ++ fr) ?_ hp
      (fun _ => .refl _) (fun _ h => h)
    split
    · exact triple_ask (.refl _)
    · exact triple_fail (.refl _)

theorem memInitialize_ample (s : Int) (h : Heap) (ha : Ample h) :
    ∃ p h', memInitialize s h = (.ok p, s, h') ∧ Ample h' := by
  have hc : Computes memInitialize (fun s => (.ok (), s)) (fun _ => ()) := by
    unfold memInitialize
    refine computes_skip computes_alloc fun b => ?_
    refine computes_skip (computes_onError computes_alloc (quiet_release b)) fun a => ?_
    exact computes_pure (b, a) (fun _ => ())
  obtain ⟨h1, h2, h3⟩ := hc s h ha
  revert h1 h2 h3
  rcases memInitialize s h with ⟨r, s', h'⟩
  intro h1 h2 h3
  cases r with
  | ok p =>
    dsimp only at h2
    exact ⟨p, h', by rw [h2], h1⟩
  | err => cases h3
  | ub => cases h3
  | hang => cases h3

/-- One iteration of the loop over the sections: a failure leaves nothing or a section behind, and
  with enough memory a section. -/
theorem memReadSectionEntry_spec (f : FileCtx) (d : DirEntry) (e : Endian) (entry : Int)
    (s : Int) (h : Heap) (rest : List Nat) (hok : HeapOk h) (hl : h.live.Perm rest) :
    HeapOk (memReadSectionEntry f d e entry s h).2.2 ∧
    (memReadSectionEntry f d e entry s h).2.2.grant = h.grant ∧
    (∀ r, (memReadSectionEntry f d e entry s h).1 = .ok r →
      (memReadSectionEntry f d e entry s h).2.2.live.Perm (sectionBlocks r.1 ++ rest)) ∧
    ((memReadSectionEntry f d e entry s h).1 = .err → ∃ leak,
      (leak = [] ∧ ¬ Ample h ∨ ∃ m : MSection, leak = sectionBlocks m) ∧
      (memReadSectionEntry f d e entry s h).2.2.live.Perm (leak ++ rest)) := by
  have ht : Triple rest (memReadSectionEntry f d e entry) (fun r => sectionBlocks r.1 ++ rest)
      (fun l => l.Perm rest ∨ Leak rest l) := by
    rw [memReadSectionEntry_eq]
    refine triple_bind (triple_weaken (memInitialize_triple rest) (.refl _) (fun _ => .refl _)
      (fun _ h => .inl h)) fun p => ?_
    exact triple_weaken (memReadSectionBody_triple f d e entry p rest) (.refl _) (fun _ => .refl _)
      (fun _ h => .inr h)
  obtain ⟨h1, h2, h3, h4⟩ := ht s h [] hok (by rwa [List.append_nil])
  refine ⟨h1, h2, fun r hr => by rw [← List.append_nil (_ ++ rest)]; exact h3 r hr, fun he => ?_⟩
  by_cases ha : Ample h
  · obtain ⟨p, h', hi, -⟩ := memInitialize_ample s h ha
    obtain ⟨i1, -, i3, -⟩ := memInitialize_triple rest s h [] hok (by rwa [List.append_nil])
    rw [hi] at i1 i3
    have hb := memReadSectionBody_triple f d e entry p rest s h' [] i1 (i3 p rfl)
    have heq : memReadSectionEntry f d e entry s h = memReadSectionBody f d e entry p s h' := by
      rw [memReadSectionEntry_eq, mem_bind]
      unfold Mem.bind
      rw [hi]
    rw [heq] at he ⊢
    obtain ⟨l, ⟨m, hm⟩, hp⟩ := hb.2.2.2 he
    rw [List.append_nil] at hp
    exact ⟨sectionBlocks m, .inr ⟨m, rfl⟩, hp.trans hm⟩
  · obtain ⟨l, hl | ⟨m, hm⟩, hp⟩ := h4 he
    · rw [List.append_nil] at hp
      exact ⟨[], .inl ⟨rfl, ha⟩, hp.trans hl⟩
    · rw [List.append_nil] at hp
      exact ⟨sectionBlocks m, .inr ⟨m, rfl⟩, hp.trans hm⟩

/-- The loop over the sections: it leaves nothing behind on success, and nothing or a section on
  failure. -/
theorem memSectionsLoop_spec (f : FileCtx) (d : DirEntry) (e : Endian) :
    ∀ n entry secs s h rest, HeapOk h →
    h.live.Perm (secs.flatMap sectionBlocks ++ rest) →
    HeapOk (memSectionsLoop f d e n entry secs s h).2.2 ∧
    (memSectionsLoop f d e n entry secs s h).2.2.grant = h.grant ∧
    (memSectionsLoop f d e n entry secs s h).1 ≠ .err ∧
    ∀ secs' ok, (memSectionsLoop f d e n entry secs s h).1 = .ok (secs', ok) →
      ∃ leak : List Nat, (ok = true ∧ leak = [] ∨
        ok = false ∧ (leak = [] ∧ ¬ Ample h ∨ ∃ m : MSection, leak = sectionBlocks m)) ∧
      (memSectionsLoop f d e n entry secs s h).2.2.live.Perm
        (secs'.flatMap sectionBlocks ++ (leak ++ rest))
  | 0, entry, secs, s, h, rest, hok, hl => by
    refine ⟨hok, rfl, fun h => (by cases h), ?_⟩
    intro secs' ok hr
    cases hr
    exact ⟨[], .inl ⟨rfl, rfl⟩, hl⟩
  | n + 1, entry, secs, s, h, rest, hok, hl => by
    obtain ⟨h1, h2, h3, h4⟩ := memReadSectionEntry_spec f d e entry s h _ hok hl
    unfold memSectionsLoop
    rw [mem_bind]
    unfold Mem.bind Mem.attempt
    revert h1 h2 h3 h4
    rcases memReadSectionEntry f d e entry s h with ⟨r, s', h'⟩
    intro h1 h2 h3 h4
    dsimp only at h1 h2 h3 h4
    cases r with
    | ok r =>
      have hp : h'.live.Perm ((secs ++ [r.1]).flatMap sectionBlocks ++ rest) := by
        refine (h3 r rfl).trans ?_
        simp only [List.flatMap_append, List.flatMap_cons, List.flatMap_nil, List.append_nil,
          ← List.append_assoc]
        exact List.perm_append_comm.append_right rest
      obtain ⟨k1, k2, k3, k4⟩ := memSectionsLoop_spec f d e n r.2 _ s' h' rest h1 hp
      have ha : Ample h' ↔ Ample h := by unfold Ample; rw [h2]
      rw [ha] at k4
      exact ⟨k1, k2.trans h2, k3, k4⟩
    | err =>
      obtain ⟨leak, hk, hp⟩ := h4 rfl
      refine ⟨h1, h2, fun h => (by cases h), ?_⟩
      intro secs' ok hr
      cases hr
      refine ⟨leak, .inr ⟨rfl, hk⟩, hp.trans ?_⟩
      rw [← List.append_assoc, ← List.append_assoc]
      exact List.perm_append_comm.append_right rest
    | ub => exact ⟨h1, h2, fun h => (by cases h), fun _ _ h => (by cases h)⟩
    | hang => exact ⟨h1, h2, fun h => (by cases h), fun _ _ h => (by cases h)⟩

theorem reader_bind (v : Reader α) (w : α → Reader β) : (v >>= w) = stepBind v w := by
  funext s
  show Reader.bind v w s = stepBind v w s
  unfold Reader.bind stepBind
  rcases v s with ⟨r, s'⟩
  cases r <;> rfl

/-- The header of the set, as the program reads it. -/
def setHeader (f : FileCtx) (d : DirEntry) : Reader (Endian × Bytes × Nat) := do
  seekTo d 0
  let b ← readExactly f d 28
  Reader.of (readSetHeader b)

theorem setHeader_lift (f : FileCtx) (d : DirEntry) :
    ((do
      readerStep (seekTo d 0)
      let b ← readerStep (readExactly f d 28)
      Mem.of (readSetHeader b)) : SetMem (Endian × Bytes × Nat)) = Mem.lift (setHeader f d) := by
  have h1 : ∀ b : Bytes, (Mem.of (readSetHeader b) : SetMem _) =
      Mem.lift (Reader.of (readSetHeader b)) := fun _ => rfl
  unfold readerStep
  simp only [h1]
  have h2 := lift_bind (readExactly f d 28) (fun b => Reader.of (readSetHeader b))
  have h3 := lift_bind (seekTo d 0) (fun _ => stepBind (readExactly f d 28)
    (fun b => Reader.of (readSetHeader b)))
  have h4 : setHeader f d = stepBind (seekTo d 0) (fun _ => stepBind (readExactly f d 28)
      (fun b => Reader.of (readSetHeader b))) := by
    unfold setHeader
    rw [reader_bind]
    congr 1
    funext _
    rw [reader_bind]
  rw [h4]
  refine Eq.trans ?_ h3
  exact congrArg (fun x => (Mem.lift (seekTo d 0) : SetMem Unit) >>= fun _ => x) h2

/-- `libolecf_property_set_read`. -/
theorem memReadSet_spec (f : FileCtx) (d : DirEntry) (s : Int) (h : Heap) (rest : List Nat)
    (hok : HeapOk h) (hl : h.live.Perm rest) :
    HeapOk (memReadSet f d s h).2.2 ∧ (memReadSet f d s h).2.2.grant = h.grant ∧
    (memReadSet f d s h).1 ≠ .err ∧
    ∀ cls secs ok, (memReadSet f d s h).1 = .ok (cls, secs, ok) →
      ∃ leak : List Nat, (ok = true ∧ leak = [] ∨
        ok = false ∧ (leak = [] ∧ (¬ Ample h ∨ (setHeader f d s).1 = .err) ∨
          (setHeader f d s).1 ≠ .err ∧ ∃ m : MSection, leak = sectionBlocks m)) ∧
      (memReadSet f d s h).2.2.live.Perm (secs.flatMap sectionBlocks ++ (leak ++ rest)) := by
  unfold memReadSet
  rw [setHeader_lift, mem_bind]
  unfold Mem.bind Mem.attempt Mem.lift
  dsimp only
  rcases setHeader f d s with ⟨r, s'⟩
  cases r with
  | ok p =>
    obtain ⟨e, cls, n⟩ := p
    dsimp only
    obtain ⟨k1, k2, k3, k4⟩ := memSectionsLoop_spec f d e n 28 [] s' h rest hok hl
    rw [mem_bind]
    unfold Mem.bind
    revert k1 k2 k3 k4
    rcases memSectionsLoop f d e n 28 [] s' h with ⟨r, s'', h'⟩
    intro k1 k2 k3 k4
    cases r with
    | ok p =>
      obtain ⟨secs, ok⟩ := p
      refine ⟨k1, k2, fun h => (by cases h), ?_⟩
      intro cls' secs' ok' hr
      cases hr
      obtain ⟨leak, hk, hp⟩ := k4 secs ok rfl
      refine ⟨leak, ?_, hp⟩
      rcases hk with hk | ⟨h1, ⟨h2, h3⟩ | h2⟩
      · exact .inl hk
      · exact .inr ⟨h1, .inl ⟨h2, .inl h3⟩⟩
      · exact .inr ⟨h1, .inr ⟨by simp, h2⟩⟩
    | err => exact absurd rfl k3
    | ub => exact ⟨k1, k2, fun h => (by cases h), fun _ _ _ h => (by cases h)⟩
    | hang => exact ⟨k1, k2, fun h => (by cases h), fun _ _ _ h => (by cases h)⟩
  | err =>
    refine ⟨hok, rfl, fun h => (by cases h), ?_⟩
    intro cls secs ok hr
    cases hr
    exact ⟨[], .inr ⟨rfl, .inl ⟨rfl, .inr rfl⟩⟩, hl⟩
  | ub => exact ⟨hok, rfl, fun h => (by cases h), fun _ _ _ h => (by cases h)⟩
  | hang => exact ⟨hok, rfl, fun h => (by cases h), fun _ _ _ h => (by cases h)⟩

/-- `libolecf_property_set_stream_get_set`. -/
theorem memGetSet_spec (f : FileCtx) (d : DirEntry) (s : Int) (h : Heap) (rest : List Nat)
    (hok : HeapOk h) (hl : h.live.Perm rest) :
    HeapOk (memGetSet f d s h).2.2 ∧ (memGetSet f d s h).2.2.grant = h.grant ∧
    (∀ set, (memGetSet f d s h).1 = .ok set →
      (memGetSet f d s h).2.2.live.Perm (setBlocks set ++ rest)) ∧
    ((memGetSet f d s h).1 = .err →
      ∃ leak : List Nat, (leak = [] ∧ (¬ Ample h ∨ (setHeader f d s).1 = .err) ∨
          (setHeader f d s).1 ≠ .err ∧ ∃ m : MSection, leak = sectionBlocks m) ∧
      (memGetSet f d s h).2.2.live.Perm (leak ++ rest)) := by
  obtain ⟨i1, i2, i3, i4⟩ := memInitialize_triple rest s h [] hok (by rwa [List.append_nil])
  have hic : Ample h → (memInitialize s h).1 ≠ .err := by
    intro ha hc
    obtain ⟨p, h', hi, -⟩ := memInitialize_ample s h ha
    rw [hi] at hc
    cases hc
  have his : (memInitialize s h).2.1 = s := by
    unfold memInitialize
    exact stays_bind stays_alloc (fun b => stays_bind (stays_onError stays_alloc
      (stays_quiet (quiet_release b))) fun a => stays_pure _) s h
  unfold memGetSet
  rw [mem_bind]
  unfold Mem.bind
  revert i1 i2 i3 i4 hic his
  rcases memInitialize s h with ⟨r, s', h'⟩
  intro i1 i2 i3 i4 hic his
  dsimp only at i1 i2 i3 i4 hic his
  subst his
  cases r with
  | ok p =>
    obtain ⟨block, array⟩ := p
    have hp : h'.live.Perm (block :: array :: rest) := by
      have := i3 (block, array) rfl
      rwa [List.append_nil] at this
    obtain ⟨k1, k2, k3, k4⟩ := memReadSet_spec f d s' h' _ i1 hp
    dsimp only
    rw [mem_bind]
    unfold Mem.bind
    revert k1 k2 k3 k4
    rcases memReadSet f d s' h' with ⟨r, s'', h''⟩
    intro k1 k2 k3 k4
    dsimp only at k1 k2 k3 k4
    have ha : Ample h' ↔ Ample h := by unfold Ample; rw [i2]
    rw [ha] at k4
    cases r with
    | ok q =>
      obtain ⟨cls, secs, ok⟩ := q
      obtain ⟨leak, hk, hq⟩ := k4 cls secs ok rfl
      have hq' : h''.live.Perm (setBlocks ⟨cls, block, array, secs⟩ ++ (leak ++ rest)) := by
        refine hq.trans ?_
        unfold setBlocks
        dsimp only
        refine (List.Perm.append_left _ (List.perm_middle (l₁ := leak))).trans ?_
        refine List.perm_middle.trans (List.Perm.cons _ ?_)
        refine (List.Perm.append_left _ (List.perm_middle (l₁ := leak))).trans ?_
        exact List.perm_middle
      cases ok with
      | true =>
        refine ⟨k1, k2.trans i2, ?_, fun h => (by cases h)⟩
        intro set hs
        cases hs
        rcases hk with ⟨-, hk⟩ | ⟨hk, -⟩
        · rw [hk] at hq'
          exact hq'
        · cases hk
      | false =>
        have hf := freeSet_triple (exc := fun _ => False) ⟨cls, block, array, secs⟩ (leak ++ rest)
          s'' h'' [] k1 (by rwa [List.append_nil])
        have ht := triple_bind (triple_fail (α := Unit) (post := fun _ => []) (exc := (· = []))
          (pre := []) rfl) (fun _ => triple_pure (σ := Int) (a := (⟨cls, block, array, secs⟩ : MSet))
          (post := fun _ => []) (.refl _))
        obtain ⟨f1, f2, f3, f4⟩ := hf
        have hqt : Quiet (freeSet ⟨cls, block, array, secs⟩) := quiet_freeSet _
        obtain ⟨q1, q2, q3⟩ := hqt s'' h''
        dsimp only
        rw [mem_bind]
        unfold Mem.bind Mem.onError
        simp only [Bool.false_eq_true, if_false]
        show HeapOk _ ∧ _
        unfold Mem.fail Mem.of
        dsimp only
        unfold Mem.bind
        revert f1 f2 f3 q1
        rcases freeSet ⟨cls, block, array, secs⟩ s'' h'' with ⟨r, s3, h3⟩
        intro f1 f2 f3 q1
        dsimp only at q1
        subst q1
        refine ⟨f1, f2.trans (k2.trans i2), fun _ h => (by cases h), fun _ => ?_⟩
        rcases hk with ⟨hk, -⟩ | ⟨-, hk⟩
        · cases hk
        · refine ⟨leak, hk, ?_⟩
          have := f3 () rfl
          rwa [List.append_nil] at this
    | err => exact absurd rfl k3
    | ub => exact ⟨k1, k2.trans i2, fun _ h => (by cases h), fun h => (by cases h)⟩
    | hang => exact ⟨k1, k2.trans i2, fun _ h => (by cases h), fun h => (by cases h)⟩
  | err =>
    refine ⟨i1, i2, fun _ h => (by cases h), fun _ => ?_⟩
    obtain ⟨l, hl1, hl2⟩ := i4 rfl
    rw [List.append_nil] at hl2
    refine ⟨[], .inl ⟨rfl, .inl fun ha => hic ha rfl⟩, hl2.trans hl1⟩
  | ub => exact ⟨i1, i2, fun _ h => (by cases h), fun h => (by cases h)⟩
  | hang => exact ⟨i1, i2, fun _ h => (by cases h), fun h => (by cases h)⟩

/-! ### Values -/

/-- Sequencing, for a step of the reader. -/
theorem computes_bind' {m : SetMem α} {k : α → SetMem β} {v : Reader γ} {w : γ → Reader δ}
    {view : α → γ} {view' : β → δ} (hm : Computes m v view)
    (hk : ∀ a, Computes (k a) (w (view a)) view') : Computes (m >>= k) (v >>= w : Reader δ) view' := by
  rw [reader_bind]
  exact computes_bind hm hk

theorem computes_step {k : α → SetMem β} {v : Reader α} {w : α → Reader δ} {view' : β → δ}
    (hk : ∀ a, Computes (k a) (w a) view') :
    Computes (readerStep v >>= k) (v >>= w : Reader δ) view' :=
  computes_bind' (computes_lift v) hk

theorem computes_stepOf {k : α → SetMem β} {r : Res α} {w : α → Reader δ} {view' : β → δ}
    (hk : ∀ a, Computes (k a) (w a) view') :
    Computes (Mem.of r >>= k) (Reader.of r >>= w : Reader δ) view' :=
  computes_bind' (computes_of r) hk

theorem computes_ret {a : α} {c : γ} {view : α → γ} (h : view a = c) :
    Computes (pure a : SetMem α) (pure c : Reader γ) view := by
  rw [← h]
  exact computes_pure a view

theorem memMultiLoop_computes (f : FileCtx) (d : DirEntry) (e : Endian) :
    ∀ n offset, Computes (memMultiLoop f d e n offset) (multiLoop f d e n offset) id
  | 0, _ => computes_ret rfl
  | n + 1, offset => by
    unfold memMultiLoop multiLoop
    split
    · exact computes_fail _
    · refine computes_step fun b => computes_stepOf fun size => ?_
      split
      · exact computes_fail _
      · split
        · exact computes_fail _
        · refine computes_skip computes_alloc fun data => ?_
          refine computes_bind' (computes_onError (computes_lift _) (quiet_release _)) fun _ => ?_
          exact computes_skip (computes_quiet (quiet_release _)) fun _ =>
            memMultiLoop_computes f d e n _

theorem memMakeValue_computes (data : Option Nat) (v : FValue) :
    Computes (memMakeValue data v) (pure v : Reader FValue) (·.value) := by
  unfold memMakeValue
  refine computes_skip (computes_onError computes_alloc (quiet_releaseOpt _)) fun block => ?_
  cases data with
  | none => exact computes_ret rfl
  | some b =>
    refine computes_skip (computes_onError computes_ask
      (quiet_bind (quiet_release _) (quiet_releaseOpt _))) fun _ => computes_ret rfl

theorem memReadValueData_computes (f : FileCtx) (d : DirEntry) (e : Endian) (type size : Nat) :
    Computes (memReadValueData f d e type size) (readValueData f d e type size) (·.value) := by
  unfold memReadValueData readValueData
  split
  · exact memMakeValue_computes _ _
  · dsimp only
    split
    · exact computes_fail _
    · refine computes_skip computes_alloc fun block => ?_
      refine computes_bind' (computes_onError (computes_lift _) (quiet_release _)) fun data => ?_
      refine computes_stepOf fun n => ?_
      split
      · exact computes_stepOf fun bs => memMakeValue_computes _ _
      · exact memMakeValue_computes _ _

theorem memReadValue_computes (f : FileCtx) (d : DirEntry) (e : Endian) (offset : Nat) :
    Computes (memReadValue f d e offset) (readValue f d e offset)
      (fun r => (r.1, r.2.map (·.value))) := by
  unfold memReadValue readValue
  split
  · exact computes_fail _
  · refine computes_step fun _ => computes_step fun b => computes_stepOf fun type => ?_
    cases classify type with
    | multi =>
      dsimp only
      split
      · exact computes_fail _
      · refine computes_step fun _ => computes_stepOf fun n => ?_
        exact computes_bind' (memMultiLoop_computes f d e n _) fun _ => computes_ret rfl
    | undefined => exact computes_ret rfl
    | fixed size =>
      exact computes_bind' (memReadValueData_computes f d e type size) fun v => computes_ret rfl
    | «variable» =>
      refine computes_step fun _ => computes_stepOf fun n => ?_
      exact computes_bind' (memReadValueData_computes f d e type n) fun v => computes_ret rfl

/-- One iteration of the loop over the properties. -/
def readProperty (f : FileCtx) (d : DirEntry) (e : Endian) (section_ : Nat) (entry : Int) :
    Reader (PropValue × Int) := do
  seekTo d entry
  let p ← (do
    let (id, off) ← readValueEntry f d e
    if off ≤ 8 then .fail
    else do
      let entry ← tell d
      pure (id, off, entry) : Reader (Nat × Nat × Int))
  let v ← readValue f d e ((section_ + p.2.1) % 2 ^ 32)
  pure (⟨p.1, v.1, v.2⟩, p.2.2)

theorem memReadProperty_computes (f : FileCtx) (d : DirEntry) (e : Endian) (section_ : Nat)
    (entry : Int) :
    Computes (memReadProperty f d e section_ entry) (readProperty f d e section_ entry)
      (fun r => (r.1.view, r.2)) := by
  unfold memReadProperty readProperty
  refine computes_step fun _ => ?_
  refine computes_skip computes_alloc fun block => ?_
  refine computes_bind' (view := id) (computes_onError ?_ (quiet_release _)) fun r => ?_
  · refine computes_step fun r => ?_
    obtain ⟨id, off⟩ := r
    dsimp only
    split
    · exact computes_fail _
    · exact computes_step fun _ => computes_ret rfl
  · refine computes_bind' (computes_onError (memReadValue_computes f d e _) (quiet_release _))
      fun v => ?_
    refine computes_skip (computes_onError computes_ask (quiet_freeValue _)) fun _ => ?_
    exact computes_ret rfl

theorem propsLoop_succ (f : FileCtx) (d : DirEntry) (e : Endian) (section_ n : Nat) (entry : Int) :
    propsLoop f d e section_ (n + 1) entry = (do
      let r ← readProperty f d e section_ entry
      let rest ← propsLoop f d e section_ n r.2
      pure (r.1 :: rest)) := by
  funext s
  simp only [propsLoop, readProperty, bind, Reader.bind, pure]
  rcases seekTo d entry s with ⟨r, s⟩
  cases r <;> try rfl
  dsimp only
  rcases readValueEntry f d e s with ⟨r, s⟩
  cases r <;> try rfl
  dsimp only
  split
  · rfl
  · simp only [Reader.bind]
    rcases tell d _ with ⟨r, s⟩
    cases r <;> try rfl
    dsimp only
    rcases readValue f d e _ s with ⟨r, s⟩
    cases r <;> rfl

theorem memPropsLoop_computes (f : FileCtx) (d : DirEntry) (e : Endian) (section_ : Nat) :
    ∀ n entry values,
    ComputesFlag (memPropsLoop f d e section_ n entry values)
      (do
        let rest ← propsLoop f d e section_ n entry
        pure (values.map (·.view) ++ rest) : Reader (List PropValue))
      (·.2) (fun r => r.1.map (·.view))
  | 0, _, values => by
    refine computesFlag_congr (computesFlag_pure rfl) fun s => ?_
    simp [propsLoop, bind, Reader.bind, pure]
  | n + 1, entry, values => by
    unfold memPropsLoop
    refine computesFlag_congr (computes_attempt (memReadProperty_computes f d e section_ entry)
      (w := fun r => (do
        let rest ← propsLoop f d e section_ n r.2
        pure (values.map (·.view) ++ r.1 :: rest) : Reader (List PropValue))) (fun r => ?_)
      ⟨_, rfl, rfl⟩) fun s => ?_
    · refine computesFlag_congr (memPropsLoop_computes f d e section_ n r.2 (values ++ [r.1]))
        fun s => ?_
      simp
    · rw [propsLoop_succ]
      simp only [bind, Reader.bind, pure, stepBind]
      rcases readProperty f d e section_ entry s with ⟨r, s⟩
      cases r <;> try rfl
      dsimp only
      rcases propsLoop f d e section_ n _ s with ⟨r, s⟩
      cases r <;> rfl

theorem memReadSection_computes (f : FileCtx) (d : DirEntry) (e : Endian) (offset : Nat) :
    ComputesFlag (memReadSection f d e offset) (readSection f d e offset) (·.2)
      (fun r => r.1.map (·.view)) := by
  unfold memReadSection
  refine computesFlag_congr (computes_attempt (v := (do
      seekTo d offset
      let b ← readExactly f d 8
      Reader.of (rd32 e b 4) : Reader Nat)) (view := id)
    (w := fun n => propsLoop f d e offset n (offset + 8)) ?_ (fun n => ?_)
    ⟨_, rfl, rfl⟩) fun s => ?_
  · refine computes_step fun _ => computes_step fun _ => ?_
    exact computes_of _
  · refine computesFlag_congr (memPropsLoop_computes f d e offset n _ []) fun s => ?_
    simp only [bind, Reader.bind, id, List.map_nil, List.nil_append]
    rcases propsLoop f d e offset n _ s with ⟨r, s⟩
    cases r <;> rfl
  · simp only [readSection, bind, Reader.bind, pure, stepBind]
    rcases seekTo d offset s with ⟨r, s⟩
    cases r <;> try rfl
    dsimp only
    rcases readExactly f d 8 s with ⟨r, s⟩
    cases r <;> try rfl
    dsimp only
    rcases Reader.of (rd32 e _ 4) s with ⟨r, s⟩
    cases r <;> rfl

/-- The list entry of a section. -/
def readSectionHead (f : FileCtx) (d : DirEntry) (e : Endian) (entry : Int) :
    Reader (Bytes × Nat × Int) := do
  seekTo d entry
  let (cls, off) ← readSectionEntry f d e
  let entry ← tell d
  pure (cls, off, entry)

/-- One iteration of the loop over the sections. -/
def readOneSection (f : FileCtx) (d : DirEntry) (e : Endian) (entry : Int) :
    Reader (PropSection × Int) := do
  let p ← readSectionHead f d e entry
  let props ← readSection f d e p.2.1
  pure (⟨p.1, props⟩, p.2.2)

theorem computes_flag {m : Mem σ α} {flag : α → Bool} {k : α → Mem σ β} {v : σ → Res γ × σ}
    {w : γ → σ → Res δ × σ} {view : α → γ} {view' : β → δ} (hm : ComputesFlag m v flag view)
    (hk : ∀ a, flag a = true → Computes (k a) (w (view a)) view')
    (hn : ∀ a, flag a = false → Computes (k a) (fun s => (.err, s)) view') :
    Computes (m >>= k) (stepBind v w) view' := by
  intro s h ha
  obtain ⟨h1, h2, h3⟩ := hm s h ha
  rw [mem_bind]
  unfold Mem.bind stepBind
  revert h1 h2 h3
  rcases m s h with ⟨r, s', h'⟩
  rcases v s with ⟨r', s''⟩
  intro h1 h2 h3
  dsimp only at h1 h2 h3
  subst h2
  cases r with
  | ok a =>
    dsimp only at h3 ⊢
    cases hf : flag a with
    | true =>
      rw [hf, if_pos rfl] at h3
      subst h3
      exact hk a hf s' h' h1
    | false =>
      rw [hf, if_neg (by simp)] at h3
      subst h3
      exact hn a hf s' h' h1
  | err => exact h3.elim
  | ub => dsimp only at h3; subst h3; exact ⟨h1, rfl, rfl⟩
  | hang => dsimp only at h3; subst h3; exact ⟨h1, rfl, rfl⟩

theorem memReadSectionEntry_computes (f : FileCtx) (d : DirEntry) (e : Endian) (entry : Int) :
    Computes (memReadSectionEntry f d e entry) (readOneSection f d e entry)
      (fun r => (r.1.view, r.2)) := by
  unfold memReadSectionEntry readOneSection
  refine computes_skip (m := memInitialize) ?_ fun p => ?_
  · unfold memInitialize
    refine computes_skip computes_alloc fun b => ?_
    refine computes_skip (computes_onError computes_alloc (quiet_release b)) fun a => ?_
    exact computes_pure (b, a) (fun _ => ())
  · obtain ⟨block, array⟩ := p
    refine computes_bind' (view := id) (computes_onError ?_ quiet_pure) fun r => ?_
    · unfold readSectionHead
      refine computes_step fun _ => computes_step fun r => computes_step fun _ => ?_
      exact computes_ret rfl
    · rw [reader_bind]
      refine computes_flag (memReadSection_computes f d e _) (fun v hv => ?_) (fun v hv => ?_)
      · obtain ⟨values, ok⟩ := v
        dsimp only at hv ⊢
        subst hv
        refine computes_skip (computes_onError computes_ask quiet_pure) fun _ => ?_
        exact computes_ret rfl
      · obtain ⟨values, ok⟩ := v
        dsimp only at hv ⊢
        subst hv
        intro s h ha
        exact ⟨ha, rfl, rfl⟩

theorem sectionsLoop_succ (f : FileCtx) (d : DirEntry) (e : Endian) (n : Nat) (entry : Int) :
    sectionsLoop f d e (n + 1) entry = (do
      let r ← readOneSection f d e entry
      let rest ← sectionsLoop f d e n r.2
      pure (r.1 :: rest)) := by
  funext s
  simp only [sectionsLoop, readOneSection, readSectionHead, bind, Reader.bind, pure]
  rcases seekTo d entry s with ⟨r, s⟩
  cases r <;> try rfl
  dsimp only
  rcases readSectionEntry f d e s with ⟨r, s⟩
  cases r <;> try rfl
  dsimp only
  rcases tell d s with ⟨r, s⟩
  cases r <;> try rfl
  dsimp only
  rcases readSection f d e _ s with ⟨r, s⟩
  cases r <;> rfl

theorem memSectionsLoop_computes (f : FileCtx) (d : DirEntry) (e : Endian) :
    ∀ n entry secs,
    ComputesFlag (memSectionsLoop f d e n entry secs)
      (do
        let rest ← sectionsLoop f d e n entry
        pure (secs.map (·.view) ++ rest) : Reader (List PropSection))
      (·.2) (fun r => r.1.map (·.view))
  | 0, _, values => by
    refine computesFlag_congr (computesFlag_pure rfl) fun s => ?_
    simp [sectionsLoop, bind, Reader.bind, pure]
  | n + 1, entry, secs => by
    unfold memSectionsLoop
    refine computesFlag_congr (computes_attempt (memReadSectionEntry_computes f d e entry)
      (w := fun r => (do
        let rest ← sectionsLoop f d e n r.2
        pure (secs.map (·.view) ++ r.1 :: rest) : Reader (List PropSection))) (fun r => ?_)
      ⟨_, rfl, rfl⟩) fun s => ?_
    · refine computesFlag_congr (memSectionsLoop_computes f d e n r.2 (secs ++ [r.1]))
        fun s => ?_
      simp
    · rw [sectionsLoop_succ]
      simp only [bind, Reader.bind, pure, stepBind]
      rcases readOneSection f d e entry s with ⟨r, s⟩
      cases r <;> try rfl
      dsimp only
      rcases sectionsLoop f d e n _ s with ⟨r, s⟩
      cases r <;> rfl

theorem memReadSet_computes (f : FileCtx) (d : DirEntry) :
    ComputesFlag (memReadSet f d) (readSet f d) (·.2.2)
      (fun r => ⟨r.1, r.2.1.map (·.view)⟩) := by
  unfold memReadSet
  rw [setHeader_lift]
  refine computesFlag_congr (computes_attempt (v := setHeader f d) (view := id)
    (w := fun p => (do
      let sections ← sectionsLoop f d p.1 p.2.2 28
      pure ⟨p.2.1, sections⟩ : Reader PropSet)) (computes_lift _) (fun p => ?_)
    ⟨_, rfl, rfl⟩) fun s => ?_
  · obtain ⟨e, cls, n⟩ := p
    intro s h ha
    obtain ⟨h1, h2, h3⟩ := memSectionsLoop_computes f d e n 28 [] s h ha
    dsimp only [id]
    rw [mem_bind]
    revert h1 h2 h3
    simp only [Mem.bind, bind, Reader.bind, pure, List.map_nil, List.nil_append]
    rcases memSectionsLoop f d e n 28 [] s h with ⟨r, s', h'⟩
    rcases sectionsLoop f d e n 28 s with ⟨q, s''⟩
    cases r <;> cases q <;> intro h1 h2 h3 <;> dsimp only at h1 h2 h3 ⊢ <;>
      first
        | exact h3.elim
        | (simp at h3; done)
        | (refine ⟨h1, h2, ?_⟩; split at h3 <;> rename_i hh <;> simp_all)
        | exact ⟨h1, h2, rfl⟩
  · simp only [readSet, setHeader, bind, Reader.bind, pure, stepBind]
    rcases seekTo d 0 s with ⟨r, s⟩
    cases r <;> try rfl
    dsimp only
    rcases readExactly f d 28 s with ⟨r, s⟩
    cases r <;> try rfl
    dsimp only
    rcases Reader.of (readSetHeader _) s with ⟨r, s⟩
    cases r <;> rfl

/-- With memory for every request the program reads what `readSet` describes. -/
theorem memGetSet_computes (f : FileCtx) (d : DirEntry) :
    Computes (memGetSet f d) (readSet f d) (·.view) := by
  unfold memGetSet
  refine computes_skip (m := memInitialize) ?_ fun p => ?_
  · unfold memInitialize
    refine computes_skip computes_alloc fun b => ?_
    refine computes_skip (computes_onError computes_alloc (quiet_release b)) fun a => ?_
    exact computes_pure (b, a) (fun _ => ())
  · obtain ⟨block, array⟩ := p
    refine computes_congr (computes_flag (w := fun c s => (.ok c, s)) (memReadSet_computes f d)
      (fun v hv => ?_) (fun v hv => ?_)) fun s => ?_
    · obtain ⟨cls, secs, ok⟩ := v
      dsimp only at hv ⊢
      subst hv
      intro s h ha
      exact ⟨ha, rfl, rfl⟩
    · obtain ⟨cls, secs, ok⟩ := v
      dsimp only at hv ⊢
      subst hv
      exact computes_congr (computes_bind (w := fun c s => (.ok c, s)) (computes_onError
        (v := fun s => (.err, s)) (computes_fail (γ := PropSet) fun _ => ⟨cls, secs.map (·.view)⟩)
        (quiet_freeSet _)) fun _ => computes_pure _ MSet.view) fun s => rfl
    · unfold stepBind
      rcases readSet f d s with ⟨r, s⟩
      cases r <;> rfl

end Lemmas
end Olecf
