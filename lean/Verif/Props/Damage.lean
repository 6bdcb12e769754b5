import Verif.Spec.Damage
import Verif.Props.EndToEnd

/-
  C111: damaged files.
-/

namespace Olecf.Props
open Olecf.Spec

/-! ### Readers on a damaged device -/

theorem readable_some {dev : Dev} {r : Nat × Nat} (h : Readable dev r) : ∃ b, dev.get r.1 r.2 = some b :=
  Option.ne_none_iff_exists'.1 h

/-- With a prefix of a file. -/
theorem damaged_take (content : Bytes) (n : Nat) : Damaged (Dev.ofBytes (content.take n)) (Dev.ofBytes content) := by
  intro o k b h
  unfold Dev.get Dev.ofBytes at h ⊢
  dsimp only at h ⊢
  split at h
  · rename_i hl
    cases h
    have he : ((content.take n).drop o).take k = (content.drop o).take k := by
      rw [List.drop_take, List.take_take] at hl ⊢
      simp only [List.length_take, List.length_drop] at hl
      congr 1
      omega
    rw [← he, if_pos hl]
  · cases h

theorem damaged_refl (dev : Dev) : Damaged dev dev := fun _ _ _ h => h

section
variable {dev' dev : Dev} (hd : Damaged dev' dev)
include hd

theorem headerRead_damaged {t : AllocTable} (h : ∀ r ∈ (headerRead dev' t).reads, Readable dev' r) :
    headerRead dev t = headerRead dev' t := by
  unfold headerRead at h ⊢
  cases hg : dev'.get 0 512 with
  | none =>
    rw [hg] at h
    exact absurd hg (h (0, 512) (List.mem_singleton.2 rfl))
  | some b => rw [hd _ _ _ hg]

theorem msatLoop_damaged (io : IoHandle) (entries : Nat) : ∀ fuel id index t,
    (∀ r ∈ (msatLoop io dev' entries fuel id index t).reads, Readable dev' r) →
    msatLoop io dev entries fuel id index t = msatLoop io dev' entries fuel id index t := by
  intro fuel
  induction fuel with
  | zero =>
    intro id index t _
    unfold msatLoop
    rfl
  | succ fuel ih =>
    intro id index t h
    unfold msatLoop at h ⊢
    by_cases h1 : id = EOC
    · rw [if_pos h1, if_pos h1]
    rw [if_neg h1] at h
    rw [if_neg h1, if_neg h1]
    dsimp only at h ⊢
    by_cases h2 : index ≥ t.n
    · rw [if_pos h2, if_pos h2]
    rw [if_neg h2] at h
    rw [if_neg h2, if_neg h2]
    cases hg : dev'.get (sectorOffset id io.sectorSize) io.sectorSize with
    | none =>
      rw [hg] at h
      exact absurd hg (h (_, _) (List.mem_singleton.2 rfl))
    | some b =>
      rw [hg] at h
      rw [hd _ _ _ hg]
      dsimp only at h ⊢
      rcases hc : fillChecked io.byteOrder b entries 0 index t with ⟨t', _ | _ | _ | _⟩ <;> rw [hc] at h <;>
        dsimp only at h ⊢
      cases hn : rd32 io.byteOrder b (4 * entries) with
      | ok v =>
        rw [hn] at h
        dsimp only at h ⊢
        rw [ih _ _ _ fun r hr => h r (List.mem_cons_of_mem _ hr)]
      | _ => rfl

theorem readMsat_damaged (io : IoHandle) (t : AllocTable) (id count : Nat)
    (h : ∀ r ∈ (readMsat io dev' t id count).reads, Readable dev' r) :
    readMsat io dev t id count = readMsat io dev' t id count := by
  unfold readMsat at h ⊢
  by_cases h1 : io.sectorSize = 0 ∨ io.sectorSize > MAX_ALLOC
  · rw [if_pos h1, if_pos h1]
  rw [if_neg h1] at h
  rw [if_neg h1, if_neg h1]
  by_cases h2 : t.n < 109
  · rw [if_pos h2, if_pos h2]
  rw [if_neg h2] at h
  rw [if_neg h2, if_neg h2]
  by_cases h3 : id = EOC ∧ count = 0
  · rw [if_pos h3, if_pos h3]
  rw [if_neg h3] at h
  rw [if_neg h3, if_neg h3]
  by_cases h4 : id = EOC
  · rw [if_pos h4, if_pos h4]
  rw [if_neg h4] at h
  rw [if_neg h4, if_neg h4]
  dsimp only at h ⊢
  by_cases h5 : io.sectorSize / 4 = 0
  · rw [if_pos h5, if_pos h5]
  rw [if_neg h5] at h
  rw [if_neg h5, if_neg h5]
  generalize (if (t.n : Int) < toInt32 (109 + (if count = 0 then 1 else count) * (io.sectorSize / 4 - 1)) then
    t.resize (toInt32 (109 + (if count = 0 then 1 else count) * (io.sectorSize / 4 - 1))) else .ok t) = x at h ⊢
  cases x with
  | ok t' => exact msatLoop_damaged hd io _ _ _ _ _ h
  | _ => rfl

theorem satLoop_damaged (io : IoHandle) (entries : Nat) : ∀ ids index t,
    (∀ r ∈ (satLoop io dev' entries ids index t).reads, Readable dev' r) →
    satLoop io dev entries ids index t = satLoop io dev' entries ids index t := by
  intro ids
  induction ids with
  | nil =>
    intro index t _
    rfl
  | cons id rest ih =>
    intro index t h
    unfold satLoop at h ⊢
    by_cases h1 : id = UNUSED
    · rw [if_pos h1] at h
      rw [if_pos h1, if_pos h1]
      exact ih _ _ h
    rw [if_neg h1] at h
    rw [if_neg h1, if_neg h1]
    by_cases h2 : index ≥ t.n
    · rw [if_pos h2, if_pos h2]
    rw [if_neg h2] at h
    rw [if_neg h2, if_neg h2]
    dsimp only at h ⊢
    cases hg : dev'.get (sectorOffset id io.sectorSize) io.sectorSize with
    | none =>
      rw [hg] at h
      exact absurd hg (h (_, _) (List.mem_singleton.2 rfl))
    | some b =>
      rw [hg] at h
      rw [hd _ _ _ hg]
      dsimp only at h ⊢
      cases hc : fillUnchecked io.byteOrder b entries 0 index t with
      | ok t' =>
        rw [hc] at h
        dsimp only at h ⊢
        rw [ih _ _ fun r hr => h r (List.mem_cons_of_mem _ hr)]
      | _ => rfl

theorem readSat_damaged (io : IoHandle) (msat t : AllocTable) (count : Nat)
    (h : ∀ r ∈ (readSat io dev' msat t count).reads, Readable dev' r) :
    readSat io dev msat t count = readSat io dev' msat t count := by
  unfold readSat at h ⊢
  by_cases h1 : io.sectorSize = 0 ∨ io.sectorSize > MAX_ALLOC
  · rw [if_pos h1, if_pos h1]
  rw [if_neg h1] at h
  rw [if_neg h1, if_neg h1]
  dsimp only at h ⊢
  generalize (if (t.n : Int) < toInt32 (count * (io.sectorSize / 4)) then
    t.resize (toInt32 (count * (io.sectorSize / 4))) else .ok t) = x at h ⊢
  cases x with
  | ok t' => exact satLoop_damaged hd io _ _ _ _ h
  | _ => rfl

theorem ssatLoop_damaged (io : IoHandle) (sat : AllocTable) (entries count : Nat) : ∀ fuel id si index t,
    (∀ r ∈ (ssatLoop io dev' sat entries count fuel id si index t).reads, Readable dev' r) →
    ssatLoop io dev sat entries count fuel id si index t = ssatLoop io dev' sat entries count fuel id si index t := by
  intro fuel
  induction fuel with
  | zero =>
    intro id si index t _
    unfold ssatLoop
    rfl
  | succ fuel ih =>
    intro id si index t h
    unfold ssatLoop at h ⊢
    by_cases h1 : id = EOC
    · rw [if_pos h1, if_pos h1]
    rw [if_neg h1] at h
    rw [if_neg h1, if_neg h1]
    dsimp only at h ⊢
    by_cases h2 : si ≥ count
    · rw [if_pos h2, if_pos h2]
    rw [if_neg h2] at h
    rw [if_neg h2, if_neg h2]
    by_cases h3 : id = UNUSED
    · rw [if_pos h3] at h
      rw [if_pos h3, if_pos h3]
      exact ih _ _ _ _ h
    rw [if_neg h3] at h
    rw [if_neg h3, if_neg h3]
    cases hg : dev'.get (sectorOffset id io.sectorSize) io.sectorSize with
    | none =>
      rw [hg] at h
      exact absurd hg (h (_, _) (List.mem_singleton.2 rfl))
    | some b =>
      rw [hg] at h
      rw [hd _ _ _ hg]
      dsimp only at h ⊢
      rcases hc : fillChecked io.byteOrder b entries 0 index t with ⟨t', _ | _ | _ | _⟩ <;> rw [hc] at h <;>
        dsimp only at h ⊢
      cases hn : sat.next id with
      | ok v =>
        rw [hn] at h
        dsimp only at h ⊢
        rw [ih _ _ _ _ fun r hr => h r (List.mem_cons_of_mem _ hr)]
      | _ => rfl

theorem readSsat_damaged (io : IoHandle) (sat t : AllocTable) (id count : Nat)
    (h : ∀ r ∈ (readSsat io dev' sat t id count).reads, Readable dev' r) :
    readSsat io dev sat t id count = readSsat io dev' sat t id count := by
  unfold readSsat at h ⊢
  by_cases h1 : io.sectorSize = 0 ∨ io.sectorSize > MAX_ALLOC
  · rw [if_pos h1, if_pos h1]
  rw [if_neg h1] at h
  rw [if_neg h1, if_neg h1]
  dsimp only at h ⊢
  generalize (if (t.n : Int) < toInt32 (count * (io.sectorSize / 4)) then
    t.resize (toInt32 (count * (io.sectorSize / 4))) else .ok t) = x at h ⊢
  cases x with
  | ok t' => exact ssatLoop_damaged hd io _ _ _ _ _ _ _ _ h
  | _ => rfl

theorem dirLoop_damaged (io : IoHandle) (sat : AllocTable) : ∀ fuel id seen index acc,
    (∀ r ∈ (dirLoop io dev' sat fuel id seen index acc).reads, Readable dev' r) →
    dirLoop io dev sat fuel id seen index acc = dirLoop io dev' sat fuel id seen index acc := by
  intro fuel
  induction fuel with
  | zero =>
    intro id seen index acc _
    unfold dirLoop
    rfl
  | succ fuel ih =>
    intro id seen index acc h
    unfold dirLoop at h ⊢
    by_cases h1 : id = EOC ∨ id = UNUSED
    · rw [if_pos h1, if_pos h1]
    rw [if_neg h1] at h
    rw [if_neg h1, if_neg h1]
    dsimp only at h ⊢
    by_cases h2 : id ∈ seen
    · rw [if_pos h2, if_pos h2]
    rw [if_neg h2] at h
    rw [if_neg h2, if_neg h2]
    cases hg : dev'.get (sectorOffset id io.sectorSize) io.sectorSize with
    | none =>
      rw [hg] at h
      exact absurd hg (h (_, _) (List.mem_singleton.2 rfl))
    | some b =>
      rw [hg] at h
      rw [hd _ _ _ hg]
      dsimp only at h ⊢
      cases hc : dirSlotLoop io.byteOrder b (io.sectorSize / dirEntrySize) 0 index acc with
      | ok acc' =>
        rw [hc] at h
        dsimp only at h ⊢
        cases hn : sat.next id with
        | ok v =>
          rw [hn] at h
          dsimp only at h ⊢
          rw [ih _ _ _ _ fun r hr => h r (List.mem_cons_of_mem _ hr)]
        | _ => rfl
      | _ => rfl

theorem readDirectory_damaged (io : IoHandle) (sat : AllocTable) (list : List DirEntry) (root : Nat)
    (h : ∀ r ∈ (readDirectory io dev' sat list root).1.reads, Readable dev' r) :
    readDirectory io dev sat list root = readDirectory io dev' sat list root := by
  unfold readDirectory at h ⊢
  by_cases h1 : io.sectorSize = 0 ∨ io.sectorSize > MAX_ALLOC ∨ io.sectorSize % dirEntrySize ≠ 0
  · rw [if_pos h1, if_pos h1]
  rw [if_neg h1] at h
  rw [if_neg h1, if_neg h1]
  by_cases h2 : root = EOC
  · rw [if_pos h2, if_pos h2]
  rw [if_neg h2] at h
  rw [if_neg h2, if_neg h2]
  dsimp only at h ⊢
  have h' : ∀ r ∈ (dirLoop io dev' sat (maxDirDepth + 1) root [] 0 list).reads, Readable dev' r := by
    intro r hr
    refine h r ?_
    cases hc : (dirLoop io dev' sat (maxDirDepth + 1) root [] 0 list).res <;> exact hr
  rw [dirLoop_damaged hd io sat _ _ _ _ _ h']

omit hd in
theorem andThen_damaged {io : IoHandle} {o o' : Out α} {f f' : α → Out β × IoHandle}
    (h : ∀ r ∈ (Out.andThen io o' f').1.reads, Readable dev' r)
    (ho : (∀ r ∈ o'.reads, Readable dev' r) → o = o')
    (hf : ∀ a, (∀ r ∈ (f' a).1.reads, Readable dev' r) → f a = f' a) :
    Out.andThen io o f = Out.andThen io o' f' := by
  obtain ⟨reads, res⟩ := o'
  unfold Out.andThen at h ⊢
  cases res with
  | ok a =>
    have h1 := ho fun r hr => h r (List.mem_append_left _ hr)
    subst h1
    have h2 := hf a fun r hr => h r (List.mem_append_right _ hr)
    dsimp only
    rw [h2]
  | _ =>
    have h1 := ho h
    subst h1
    rfl

/-- An open of a damaged device that meets no damage is the open of the whole one. -/
theorem openCore_damaged (cmp : Bytes → Bytes → Option Bool) (io : IoHandle)
    (h : ∀ r ∈ (openCore cmp dev' io).1.reads, Readable dev' r) :
    openCore cmp dev io = openCore cmp dev' io := by
  rw [openCore_eq] at h
  rw [openCore_eq, openCore_eq]
  refine andThen_damaged h (headerRead_damaged hd) fun x h => ?_
  refine andThen_damaged h (readMsat_damaged hd _ _ _ _) fun msat h => ?_
  refine andThen_damaged h (readSat_damaged hd _ _ _ _) fun sat h => ?_
  refine andThen_damaged h (readSsat_damaged hd _ _ _ _ _) fun ssat h => ?_
  have hdir : readDirectory (io.withHeader x.1) dev sat [] x.1.rootDirSector =
      readDirectory (io.withHeader x.1) dev' sat [] x.1.rootDirSector := by
    refine readDirectory_damaged hd _ _ _ _ fun r hr => h r ?_
    unfold Out.andThen
    split
    · exact List.mem_append_left _ hr
    · exact hr
  rw [hdir]

/-- The reads of a loop that is successful were complete. -/
theorem streamLoop_damaged (io : IoHandle) (sat table : AllocTable) (short : Bool) (ss : Nat) :
    ∀ fuel index id off size x, (streamLoop io dev' sat table short ss fuel index id off size).res = .ok x →
    streamLoop io dev sat table short ss fuel index id off size =
      streamLoop io dev' sat table short ss fuel index id off size := by
  intro fuel
  induction fuel with
  | zero =>
    intro index id off size x _
    unfold streamLoop
    rfl
  | succ fuel ih =>
    intro index id off size x h
    unfold streamLoop at h ⊢
    by_cases h1 : size = 0
    · rw [if_pos h1, if_pos h1]
    rw [if_neg h1] at h
    rw [if_neg h1, if_neg h1]
    dsimp only at h ⊢
    by_cases h2 : id = EOC
    · rw [if_pos h2, if_pos h2]
    rw [if_neg h2] at h
    rw [if_neg h2, if_neg h2]
    cases hp : streamSectorOffset io sat short id with
    | ok pos =>
      rw [hp] at h
      dsimp only at h ⊢
      generalize (if off > index * ss then off - index * ss else 0) = skip at h ⊢
      generalize (if (ss + 2 ^ 64 - skip) % 2 ^ 64 > size then size else (ss + 2 ^ 64 - skip) % 2 ^ 64) = len at h ⊢
      by_cases h3 : pos + skip ≥ 2 ^ 63 ∨ off + len ≥ 2 ^ 63
      · rw [if_pos h3, if_pos h3]
      rw [if_neg h3] at h
      rw [if_neg h3, if_neg h3]
      cases hg : dev'.get (pos + skip) len with
      | none =>
        rw [hg] at h
        cases h
      | some b =>
        rw [hg] at h
        rw [hd _ _ _ hg]
        dsimp only at h ⊢
        cases hn : table.next id with
        | ok v =>
          rw [hn] at h
          dsimp only at h ⊢
          by_cases h4 : index + 1 > INT_MAX
          · rw [if_pos h4, if_pos h4]
          rw [if_neg h4] at h
          rw [if_neg h4, if_neg h4]
          cases hr : (streamLoop io dev' sat table short ss fuel (index + 1) v (off + len) (size - len)).res with
          | ok y => rw [ih _ _ _ _ _ hr, hr]
          | _ => rw [hr] at h; cases h
        | _ => rfl
    | _ => rfl

/-- A read that is successful on the whole device is so on the damaged one exactly if all that it reads there is
  readable; otherwise it fails. -/
theorem streamLoop_whole (io : IoHandle) (sat table : AllocTable) (short : Bool) (ss : Nat) :
    ∀ fuel index id off size x, (streamLoop io dev sat table short ss fuel index id off size).res = .ok x →
    ((∀ r ∈ (streamLoop io dev sat table short ss fuel index id off size).reads, Readable dev' r) ∧
      (streamLoop io dev' sat table short ss fuel index id off size).res = .ok x) ∨
    ((∃ r ∈ (streamLoop io dev sat table short ss fuel index id off size).reads, ¬ Readable dev' r) ∧
      (streamLoop io dev' sat table short ss fuel index id off size).res = .err) := by
  intro fuel
  induction fuel with
  | zero =>
    intro index id off size x h
    unfold streamLoop at h ⊢
    by_cases h1 : size = 0
    · rw [if_pos h1] at h ⊢
      exact .inl ⟨fun r hr => (by cases hr), h⟩
    · rw [if_neg h1] at h
      cases h
  | succ fuel ih =>
    intro index id off size x h
    unfold streamLoop at h ⊢
    by_cases h1 : size = 0
    · rw [if_pos h1] at h
      rw [if_pos h1, if_pos h1]
      exact .inl ⟨fun r hr => (by cases hr), h⟩
    rw [if_neg h1] at h
    rw [if_neg h1, if_neg h1]
    dsimp only at h ⊢
    by_cases h2 : id = EOC
    · rw [if_pos h2] at h
      cases h
    rw [if_neg h2] at h
    rw [if_neg h2, if_neg h2]
    cases hp : streamSectorOffset io sat short id with
    | ok pos =>
      rw [hp] at h
      dsimp only at h ⊢
      generalize (if off > index * ss then off - index * ss else 0) = skip at h ⊢
      generalize (if (ss + 2 ^ 64 - skip) % 2 ^ 64 > size then size else (ss + 2 ^ 64 - skip) % 2 ^ 64) = len at h ⊢
      by_cases h3 : pos + skip ≥ 2 ^ 63 ∨ off + len ≥ 2 ^ 63
      · rw [if_pos h3] at h
        cases h
      rw [if_neg h3] at h
      rw [if_neg h3, if_neg h3]
      cases hw : dev.get (pos + skip) len with
      | none =>
        rw [hw] at h
        cases h
      | some b =>
        rw [hw] at h
        dsimp only at h ⊢
        cases hn : table.next id with
        | ok v =>
          rw [hn] at h
          dsimp only at h ⊢
          by_cases h4 : index + 1 > INT_MAX
          · rw [if_pos h4] at h
            cases h
          rw [if_neg h4] at h
          rw [if_neg h4]
          cases hr : (streamLoop io dev sat table short ss fuel (index + 1) v (off + len) (size - len)).res with
          | ok y =>
            rw [hr] at h
            cases h
            cases hg : dev'.get (pos + skip) len with
            | none => exact .inr ⟨⟨_, List.mem_cons_self, fun hc => hc hg⟩, rfl⟩
            | some b' =>
              obtain rfl : b = b' := Option.some.inj (hw.symm.trans (hd _ _ _ hg))
              dsimp only
              rw [if_neg h4]
              rcases ih _ _ _ _ _ hr with ⟨k1, k2⟩ | ⟨⟨r, k1, k2⟩, k3⟩
              · rw [k2]
                refine .inl ⟨fun r hm => ?_, rfl⟩
                rcases List.mem_cons.1 hm with rfl | hm
                · exact fun hc => nomatch hc.symm.trans hg
                · exact k1 r hm
              · rw [k3]
                exact .inr ⟨⟨r, List.mem_cons_of_mem _ k1, k2⟩, rfl⟩
          | _ => rw [hr] at h; cases h
        | _ => rw [hn] at h; cases h
    | _ => rw [hp] at h; cases h

theorem readStream_whole {f f' : FileCtx} (hf : f.dev = dev) (hf' : f' = { f with dev := dev' }) (d : DirEntry)
    (offset : Int) (size : Nat) {x : Bytes × Nat} (h : (readStream f d offset size).res = .ok x) :
    ((∀ r ∈ (readStream f d offset size).reads, Readable dev' r) ∧ (readStream f' d offset size).res = .ok x) ∨
    ((∃ r ∈ (readStream f d offset size).reads, ¬ Readable dev' r) ∧ (readStream f' d offset size).res = .err) := by
  subst hf hf'
  have hs : FileCtx.short { f with dev := dev' } d = f.short d := rfl
  have ht : FileCtx.table { f with dev := dev' } d = f.table d := rfl
  have hu : FileCtx.unit { f with dev := dev' } d = f.unit d := rfl
  unfold readStream at h ⊢
  rw [hs, ht, hu]
  split at h
  · cases h
  rename_i h1
  rw [if_neg h1, if_neg h1]
  split at h
  · cases h
  rename_i h2
  rw [if_neg h2, if_neg h2]
  split at h
  · cases h
  rename_i h3
  rw [if_neg h3, if_neg h3]
  dsimp only at h ⊢
  split at h
  · cases h
  rename_i h4
  rw [if_neg h4, if_neg h4]
  cases hc : chainPos (f.table d) (toInt32 (offset.toNat / f.unit d)).toNat d.start with
  | ok id =>
    rw [hc] at h
    exact streamLoop_whole hd _ _ _ _ _ _ _ _ _ _ _ h
  | _ => rw [hc] at h; cases h

theorem readStream_damaged {f f' : FileCtx} (hf : f.dev = dev) (hf' : f' = { f with dev := dev' }) (d : DirEntry)
    (offset : Int) (size : Nat) {x : Bytes × Nat} (h : (readStream f' d offset size).res = .ok x) :
    readStream f d offset size = readStream f' d offset size := by
  subst hf hf'
  have hs : FileCtx.short { f with dev := dev' } d = f.short d := rfl
  have ht : FileCtx.table { f with dev := dev' } d = f.table d := rfl
  have hu : FileCtx.unit { f with dev := dev' } d = f.unit d := rfl
  unfold readStream at h ⊢
  rw [hs, ht, hu] at h ⊢
  split at h
  · cases h
  rename_i h1
  rw [if_neg h1, if_neg h1]
  split at h
  · cases h
  rename_i h2
  rw [if_neg h2, if_neg h2]
  split at h
  · cases h
  rename_i h3
  rw [if_neg h3, if_neg h3]
  dsimp only at h ⊢
  split at h
  · cases h
  rename_i h4
  rw [if_neg h4, if_neg h4]
  cases hc : chainPos (f.table d) (toInt32 (offset.toNat / f.unit d)).toNat d.start with
  | ok id =>
    rw [hc] at h
    exact streamLoop_damaged hd _ _ _ _ _ _ _ _ _ _ _ h
  | _ => rfl

/-- Reads that succeed on the damaged device. -/
theorem streamRead_damaged {f f' : FileCtx} (hf : f.dev = dev) (hf' : f' = { f with dev := dev' }) (d : DirEntry)
    (cur : Int) (size : Nat) {b : Bytes} (h : (streamRead f' d cur size).1.res = .ok b) :
    streamRead f d cur size = streamRead f' d cur size := by
  unfold streamRead at h ⊢
  by_cases h1 : d.type ≠ typeStream
  · rw [if_pos h1, if_pos h1]
  rw [if_neg h1] at h
  rw [if_neg h1, if_neg h1]
  by_cases h2 : cur < 0
  · rw [if_pos h2, if_pos h2]
  rw [if_neg h2] at h
  rw [if_neg h2, if_neg h2]
  by_cases h3 : size > SSIZE_MAX
  · rw [if_pos h3, if_pos h3]
  rw [if_neg h3] at h
  rw [if_neg h3, if_neg h3]
  by_cases h4 : cur ≥ d.size
  · rw [if_pos h4, if_pos h4]
  rw [if_neg h4] at h
  rw [if_neg h4, if_neg h4]
  dsimp only at h ⊢
  generalize (if size > d.size ∨ cur.toNat > d.size - size then d.size - cur.toNat else size) = n at h ⊢
  cases hr : (readStream f' d cur n).res with
  | ok x => rw [readStream_damaged hd hf hf' d cur n hr, hr]
  | _ => rw [hr] at h; cases h

/-- Reads that succeed on the whole device. -/
theorem streamRead_whole {f f' : FileCtx} (hf : f.dev = dev) (hf' : f' = { f with dev := dev' }) (d : DirEntry)
    (cur : Int) (size : Nat) {b : Bytes} (h : (streamRead f d cur size).1.res = .ok b) :
    ((∀ r ∈ (streamRead f d cur size).1.reads, Readable dev' r) ∧ (streamRead f' d cur size).1.res = .ok b) ∨
    ((∃ r ∈ (streamRead f d cur size).1.reads, ¬ Readable dev' r) ∧ (streamRead f' d cur size).1.res = .err) := by
  unfold streamRead at h ⊢
  by_cases h1 : d.type ≠ typeStream
  · rw [if_pos h1] at h
    cases h
  rw [if_neg h1] at h
  rw [if_neg h1, if_neg h1]
  by_cases h2 : cur < 0
  · rw [if_pos h2] at h
    cases h
  rw [if_neg h2] at h
  rw [if_neg h2, if_neg h2]
  by_cases h3 : size > SSIZE_MAX
  · rw [if_pos h3] at h
    cases h
  rw [if_neg h3] at h
  rw [if_neg h3, if_neg h3]
  by_cases h4 : cur ≥ d.size
  · rw [if_pos h4] at h
    rw [if_pos h4, if_pos h4]
    exact .inl ⟨fun r hr => (by cases hr), h⟩
  rw [if_neg h4] at h
  rw [if_neg h4, if_neg h4]
  dsimp only at h ⊢
  generalize (if size > d.size ∨ cur.toNat > d.size - size then d.size - cur.toNat else size) = n at h ⊢
  cases hr : (readStream f d cur n).res with
  | ok x =>
    rw [hr] at h
    dsimp only at h ⊢
    have hlen : x.1.length = n := by
      by_contra hc
      rw [if_pos hc] at h
      cases h
    rw [if_neg (fun hc => hc hlen)] at h ⊢
    rcases readStream_whole hd hf hf' d cur n hr with ⟨k1, k2⟩ | ⟨k1, k2⟩
    · rw [k2]
      dsimp only
      rw [if_neg (fun hc => hc hlen)]
      exact .inl ⟨k1, h⟩
    · rw [k2]
      exact .inr ⟨k1, rfl⟩
  | _ => rw [hr] at h; cases h

end

/-- What the whole device shows, the damaged one shows as far as it can be read. -/
theorem shows_part {dev' dev : Dev} (hd : Damaged dev' dev) {t : Tree} {f : FileCtx} (hf : f.dev = dev) {it : Item}
    {doc : Doc} (h : Shows t f it doc) : ShowsPart t { f with dev := dev' } it doc := by
  induction h with
  | stream h1 h2 h3 h4 =>
    refine .stream h1 h2 h3 fun cur size hs => ?_
    rcases streamRead_whole hd hf rfl _ cur size (h4 cur size hs) with ⟨_, k⟩ | ⟨_, k⟩
    · exact .inr k
    · exact .inl k
  | storage h1 h2 h3 h4 h5 h6 _ ih => exact .storage h1 h2 h3 h4 h5 h6 ih

theorem openRead_damaged {dev' dev : Dev} (hd : Damaged dev' dev) (cmp : Bytes → Bytes → Option Bool) (file : OleFile)
    (h : ∀ r ∈ (openRead cmp dev' file).1.reads, Readable dev' r) :
    openRead cmp dev file = openRead cmp dev' file := by
  unfold openRead at h ⊢
  by_cases h1 : file.msat.isSome ∨ file.sat.isSome ∨ file.ssat.isSome ∨ file.tree.isSome
  · rw [if_pos h1, if_pos h1]
  rw [if_neg h1] at h
  rw [if_neg h1, if_neg h1]
  dsimp only at h ⊢
  have h' : ∀ r ∈ (openCore cmp dev' file.io).1.reads, Readable dev' r := by
    intro r hr
    refine h r ?_
    cases (openCore cmp dev' file.io).1.res <;> exact hr
  rw [openCore_damaged hd cmp file.io h']

theorem openRead_reads {cmp : Bytes → Bytes → Option Bool} {dev : Dev} {file : OleFile} (he : file.Empty) :
    (openRead cmp dev file).1.reads = (openCore cmp dev file.io).1.reads := by
  unfold openRead
  rw [if_neg (by obtain ⟨h1, h2, h3, h4⟩ := he; simp [h1, h2, h3, h4])]
  dsimp only
  cases (openCore cmp dev file.io).1.res <;> rfl

/-! ### C111 -/

/-- C111: an open during which no read failed is the open of the whole file, whatever is damaged elsewhere: for
  every device and every damaged copy of it, for every state of the file object, the result and everything that is
  loaded are the same. -/
theorem C111_open_partial {dev' dev : Dev} (hd : Damaged dev' dev) (cmp : Bytes → Bytes → Option Bool) (file : OleFile)
    (h : ∀ r ∈ (openRead cmp dev' file).1.reads, Readable dev' r) :
    openRead cmp dev' file = openRead cmp dev file :=
  (openRead_damaged hd cmp file h).symm

/-- C111: reads of streams.  For every file that was opened, every stream, every position and every size: a read on
  the damaged device that succeeds gives the bytes and the offset that it gives on the whole one; and a read that
  succeeds on the whole device fails on the damaged one only if something that it has to read is damaged. -/
theorem C111_stream_reads {dev' dev : Dev} (hd : Damaged dev' dev) (f : FileCtx) (hf : f.dev = dev) (d : DirEntry)
    (cur : Int) (size : Nat) (b : Bytes) :
    ((streamRead { f with dev := dev' } d cur size).1.res = .ok b →
      streamRead f d cur size = streamRead { f with dev := dev' } d cur size) ∧
    ((streamRead f d cur size).1.res = .ok b →
      ((streamRead { f with dev := dev' } d cur size).1.res = .ok b ↔
        ∀ r ∈ (streamRead f d cur size).1.reads, Readable dev' r) ∧
      ((streamRead { f with dev := dev' } d cur size).1.res = .err ↔
        ∃ r ∈ (streamRead f d cur size).1.reads, ¬ Readable dev' r)) := by
  refine ⟨streamRead_damaged hd hf rfl d cur size, fun h => ?_⟩
  rcases streamRead_whole hd hf rfl d cur size h with ⟨k1, k2⟩ | ⟨⟨r, k1, k2⟩, k3⟩
  · exact ⟨⟨fun _ => k1, fun _ => k2⟩, fun h => (nomatch h.symm.trans k2), fun ⟨r, j1, j2⟩ => absurd (k1 r j1) j2⟩
  · exact ⟨⟨fun h => (nomatch h.symm.trans k3), fun h => absurd (h r k1) k2⟩, fun _ => ⟨r, k1, k2⟩, fun _ => k3⟩

/-- C111: a damaged file with a document.  For every file that holds a document and every damaged copy of it: if no
  read of the open fails, the open succeeds, the hierarchy is that of the document, and every read of every stream
  gives the stored bytes or fails.  Missing: opens that succeed though a read failed, see `C111_open_violated`. -/
theorem C111_document_partial {content : Bytes} {names : List Bytes} {doc : Doc} (hf : FileHolds content names doc)
    (cmp : Bytes → Bytes → Option Bool) (hcmp : ∀ n ∈ names, Comparable cmp n)
    (st : FileState) (hst : Reachable cmp st) (hclosed : st.file.handle = none) (h : HandleId)
    (hdev : Damaged (st.world.dev h) (Dev.ofBytes content)) (flags : Nat) (hfl : flags % 4 = 1)
    (hreads : ∀ r ∈ (openRead cmp (st.world.dev h) st.file).1.reads, Readable (st.world.dev h) r) :
    (openHandle cmp h flags {} st).1 = .ok () ∧
    ∃ t f it, (openHandle cmp h flags {} st).2.file.tree = some t ∧
      (openHandle cmp h flags {} st).2.file.ctx
        ((openHandle cmp h flags {} st).2.world.dev h) = some f ∧
      rootItem (some t) = some it ∧ ShowsPart t f it doc := by
  have hempty := (reachable_inv hst).closed hclosed
  rw [openRead_reads hempty] at hreads
  have hsame : ∀ io, (openCore cmp (Dev.ofBytes content) io) = openCore cmp (st.world.dev h) io := by
    intro io
    refine openCore_damaged hdev cmp io fun r hr => hreads r ?_
    rw [(openCore_io cmp (st.world.dev h) st.file.io io).1]
    exact hr
  have hok : (openHandle cmp h flags {} st).1 = .ok () := by
    obtain ⟨l, _, hl, _⟩ := C47_load hf cmp hcmp .cleared
    exact (C34_open_iff cmp st hst h flags {}).1.2 ⟨hclosed, hfl, rfl, Or.inr rfl, l, by rw [← hsame]; exact hl⟩
  refine ⟨hok, ?_⟩
  obtain ⟨l, hdr, t0, list, tree, ho, hfile, hworld⟩ := openHandle_loaded (reachable_inv hst).closed hok
  obtain ⟨h1, h2⟩ := openCore_ok_iff.2 ⟨_, _, _, _, ho⟩
  obtain ⟨l', t, hl', ht, hs⟩ := C47_load hf cmp hcmp st.file.io
  rw [hsame] at hs hl'
  rw [h1] at hl'
  cases hl'
  rw [h2] at hs
  have hd : (openHandle cmp h flags {} st).2.world.dev h = st.world.dev h := by
    rw [hworld, (ensureOpen_isOpen _ _).2.2.1]
  refine ⟨t, _, ⟨none, t.root⟩, by rw [hfile]; exact ht, ?_, rfl, shows_part hdev rfl hs⟩
  rw [hd, hfile]
  rfl

/-! ### Layouts of damaged files -/

theorem sectorsAre_damaged {content content' : Bytes} (hd : Damaged (Dev.ofBytes content') (Dev.ofBytes content))
    {ss : Nat} {ids : List Nat} {secs : List Bytes} (h : SectorsAre content' ss ids secs) :
    SectorsAre content ss ids secs := by
  unfold SectorsAre at h ⊢
  induction ids generalizing secs with
  | nil => exact h
  | cons a ids ih =>
    cases secs with
    | nil => cases h
    | cons s secs =>
      rw [List.map_cons, List.map_cons, List.cons.injEq] at h ⊢
      exact ⟨hd _ _ _ h.1, ih h.2⟩

theorem msatSectors_damaged {dev' dev : Dev} (hd : Damaged dev' dev) {e : Endian} {ss id : Nat} {secs : List Bytes}
    (h : MsatSectors dev' e ss id secs) : MsatSectors dev e ss id secs := by
  induction h with
  | done => exact .done
  | step h1 h2 _ ih => exact .step h1 (hd _ _ _ h2) ih

/-- What the first bytes of a file lay out, the whole file lays out. -/
theorem layout_take {content : Bytes} {n : Nat} {e : Endian} {h : HeaderFields} {sat ssat : List Nat}
    {slots : List SlotFields} (hl : Layout (content.take n) e h sat ssat slots) :
    Layout content e h sat ssat slots := by
  have hd := damaged_take content n
  obtain ⟨msat, secs, ⟨ms, m1, m2, m3⟩, s1, s2, s3⟩ := hl.hsat
  obtain ⟨ids, ssecs, c1, c2, c3, c4⟩ := hl.hssat
  obtain ⟨dids, dsecs, d1, d2, d3, d4, d5⟩ := hl.directory
  exact ⟨hl.fits, hl.sectorSize, hl.header.trans (List.take_prefix _ _), hl.msatLimit, hl.satLimit, hl.ssatLimit,
    ⟨msat, secs, ⟨ms, msatSectors_damaged hd m1, m2, m3⟩, sectorsAre_damaged hd s1, s2, s3⟩,
    ⟨ids, ssecs, c1, sectorsAre_damaged hd c2, c3, c4⟩,
    ⟨dids, dsecs, d1, d2, d3, sectorsAre_damaged hd d4, d5⟩, hl.hslots⟩

/-- C111: a file of which the end is missing.  If the header, the tables and the directory of a file that holds a
  document are in its first `n` bytes, these open, with the hierarchy of the document, and every read of every stream
  gives the stored bytes or fails. -/
theorem C111_truncated {content : Bytes} {hd : HeaderFields} {slots : List SlotFields} {doc : Doc} {n : Nat}
    (hf : HeldBy content hd slots doc)
    (hl : ∃ e sat ssat, Layout (content.take n) e hd sat ssat slots)
    (cmp : Bytes → Bytes → Option Bool)
    (hcmp : ∀ n ∈ (entriesOfSlots slots).map (·.name), Comparable cmp n)
    (st : FileState) (hst : Reachable cmp st) (hclosed : st.file.handle = none) (h : HandleId)
    (hdev : st.world.dev h = Dev.ofBytes (content.take n)) (flags : Nat) (hfl : flags % 4 = 1) :
    (openHandle cmp h flags {} st).1 = .ok () ∧
    ∃ t f it, (openHandle cmp h flags {} st).2.file.tree = some t ∧
      (openHandle cmp h flags {} st).2.file.ctx
        ((openHandle cmp h flags {} st).2.world.dev h) = some f ∧
      rootItem (some t) = some it ∧ ShowsPart t f it doc := by
  have hcmp' : ∀ d ∈ entriesOfSlots slots, NameComparable cmp d :=
    fun d hd => hcmp d.name (List.mem_map_of_mem hd)
  have hload : ∀ io, ∃ l t, (openCore cmp (Dev.ofBytes (content.take n)) io).1.res = .ok l ∧ l.tree = some t ∧
      ShowsPart t ⟨(openCore cmp (Dev.ofBytes (content.take n)) io).2, Dev.ofBytes (content.take n), l.sat, l.ssat⟩
        ⟨none, t.root⟩ doc := by
    intro io
    obtain ⟨l, t, m, h1, h2, h3, _, _, _, _, _, hs⟩ := heldBy_loaded hf cmp hcmp io
    obtain ⟨_, _, _, root, _, _, _, _, hg, _, _, _, _⟩ := hf
    obtain ⟨e, sat, ssat, hlay⟩ := hl
    obtain ⟨l1, t1, m1, ho1, hs1, hss1, _⟩ := layout_opens (layout_take hlay) hg cmp hcmp' io
    obtain ⟨l2, t2, m2, ho2, hs2, hss2, _⟩ := layout_opens hlay hg cmp hcmp' io
    obtain ⟨k1, k2⟩ := openCore_ok_iff.2 ⟨_, _, _, _, ho1⟩
    obtain ⟨j1, j2⟩ := openCore_ok_iff.2 ⟨_, _, _, _, ho2⟩
    rw [k1] at h1
    cases h1
    have e1 := ho1.htree.symm.trans ho2.htree
    cases e1
    have e2 := ho1.htree.symm.trans h3
    cases e2
    refine ⟨l2, t, j1, by rw [ho2.hltree]; rfl, ?_⟩
    rw [k2, hs1, hss1] at hs
    rw [j2, hs2, hss2]
    exact shows_part (damaged_take content n) rfl hs
  have hok : (openHandle cmp h flags {} st).1 = .ok () := by
    obtain ⟨l, _, hl, _⟩ := hload .cleared
    exact (C34_open_iff cmp st hst h flags {}).1.2 ⟨hclosed, hfl, rfl, Or.inr rfl, l, by rw [hdev]; exact hl⟩
  refine ⟨hok, ?_⟩
  obtain ⟨l, hdr, t0, list, tree, ho, hfile, hworld⟩ := openHandle_loaded (reachable_inv hst).closed hok
  obtain ⟨h1, h2⟩ := openCore_ok_iff.2 ⟨_, _, _, _, ho⟩
  obtain ⟨l', t, hl', ht, hs⟩ := hload st.file.io
  rw [hdev] at h1 h2
  rw [h1] at hl'
  cases hl'
  rw [h2] at hs
  have hd : (openHandle cmp h flags {} st).2.world.dev h = Dev.ofBytes (content.take n) := by
    rw [hworld, (ensureOpen_isOpen _ _).2.2.1, hdev]
  refine ⟨t, _, ⟨none, t.root⟩, by rw [hfile]; exact ht, ?_, rfl, hs⟩
  rw [hd, hfile]
  rfl

end Olecf.Props
