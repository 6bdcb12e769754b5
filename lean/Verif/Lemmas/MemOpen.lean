import Verif.Lemmas.MemFile

/-! What the functions that open files compute. -/

namespace Olecf
namespace Lemmas

open Olecf.Spec

variable {σ α β : Type}

/-! ### Steps that only free -/

theorem quiet_freeTable (t : MTable) : Quiet (freeTable t : Mem σ Unit) :=
  quiet_bind (quiet_use _) (quiet_bind (quiet_releaseOpt _) (quiet_release _))

theorem quiet_freeEntry (d : MEntry) : Quiet (freeEntry d : Mem σ Unit) :=
  quiet_bind (quiet_use _) (quiet_bind (quiet_releaseOpt _) (quiet_release _))

theorem quiet_freeEntryNotInTree (marks : List Nat) (d : MEntry) :
    Quiet (freeEntryNotInTree marks d : Mem σ Unit) := by
  unfold freeEntryNotInTree
  refine quiet_bind (quiet_use _) ?_
  split
  · exact quiet_pure
  · exact quiet_bind (quiet_releaseOpt _) (quiet_release _)

theorem quiet_freeElem {f : MEntry → Mem σ Unit} (hf : ∀ d, Quiet (f d)) (x : MElem) :
    Quiet (freeElem f x) :=
  quiet_bind (quiet_use _) (quiet_bind (hf _) (quiet_release _))

theorem quiet_freeNode {f : MEntry → Mem σ Unit} (hf : ∀ d, Quiet (f d)) (x : MNode) :
    Quiet (freeNode f x) :=
  quiet_bind (quiet_use _) (quiet_bind (hf _) (quiet_release _))

theorem quiet_freeList {f : MEntry → Mem σ Unit} (hf : ∀ d, Quiet (f d)) (l : Nat × List MElem) :
    Quiet (freeList f l) :=
  quiet_bind (quiet_use _) (quiet_bind (quiet_forEach (quiet_freeElem hf) _) (quiet_release _))

theorem quiet_openCleanup (header : Option Nat) (msat sat ssat : Option MTable)
    (list : Option (Nat × List MElem)) : Quiet (openCleanup header msat sat ssat list : Mem σ Unit) := by
  unfold openCleanup
  exact quiet_bind (quiet_forEach (quiet_freeList quiet_freeEntry) _)
    (quiet_bind (quiet_forEach quiet_freeTable _) (quiet_bind (quiet_forEach quiet_freeTable _)
      (quiet_bind (quiet_forEach quiet_freeTable _) (quiet_releaseOpt _))))

/-! ### Tables -/

theorem memTableInit_tracks (k : Int) :
    Tracks (memTableInit k : Mem σ MTable) (AllocTable.init k) (fun _ => true) (·.table) := by
  unfold memTableInit
  refine tracks_congr (w := AllocTable.init k) (tracks_step (w := fun t => .ok t) (tracks_of _) fun t _ => ?_) ?_
  · refine tracks_step (v := .ok ()) (w := fun _ => .ok t) tracks_alloc fun b _ => ?_
    split
    · exact tracks_step (v := .ok ()) (w := fun _ => .ok t)
        (tracks_onError tracks_alloc (quiet_release _)) fun i _ => tracks_ret rfl rfl
    · exact tracks_ret rfl rfl
  · cases AllocTable.init k <;> rfl

theorem memTableResize_tracks (t : MTable) (k : Int) :
    Tracks (memTableResize t k : Mem σ MTable) (t.table.resize k) (fun _ => true) (·.table) := by
  unfold memTableResize
  refine tracks_congr (tracks_step (w := fun t => .ok t) (tracks_of _) fun t' ht' => ?_) ?_
  · split
    · refine tracks_quiet (quiet_use _) ?_
      refine tracks_step (v := .ok ()) (w := fun _ => .ok t') (view := fun _ => ()) ?_ fun i _ => tracks_ret rfl rfl
      exact tracks_step (v := .ok ()) (w := fun _ => .ok ()) tracks_alloc fun b _ =>
        tracks_quiet (quiet_releaseOpt _) (tracks_ret rfl rfl)
    · rename_i hk
      have : t.table = t' := by
        unfold AllocTable.resize at ht'
        rw [if_neg hk] at ht'
        split at ht'
        · cases ht'
        · cases ht'
          rfl
      rw [id, ← this]
      exact tracks_ret rfl rfl
  · cases t.table.resize k <;> rfl

theorem memGrow_tracks (t : MTable) (k : Int) :
    Tracks (memGrow t k : Mem σ (Option MTable))
      (if (t.table.n : Int) < k then t.table.resize k else .ok t.table) Option.isSome
      (fun o => (o.getD t).table) := by
  unfold memGrow
  split
  · exact tracks_attempt (fun _ => rfl) (memTableResize_tracks t k)
  · exact tracks_ret rfl rfl

theorem memWithBuffer_tracks (o : Res AllocTable) :
    Tracks (memWithBuffer o : Mem σ (Option AllocTable)) o Option.isSome (·.getD ⟨[]⟩) := by
  unfold memWithBuffer
  refine tracks_try (v := .ok ()) (w := fun _ => o) tracks_alloc (fails_pure rfl) fun b _ => ?_
  refine tracks_congr (tracks_bind (w := fun t => .ok t) (tracks_attempt (view' := fun o => o.getD ⟨[]⟩)
    (fun _ => rfl) (tracks_of o)) (fun a ha _ => ?_) (fun a ha => ?_) ?_) ?_
  · exact tracks_quiet (quiet_release _) (tracks_ret ha rfl)
  · exact fails_quiet (quiet_release _) (fails_pure ha)
  · intro h; exact absurd (h none) (by simp)
  · cases o <;> rfl

theorem resize_cases (t : AllocTable) (k : Int) : t.resize k = .err ∨ ∃ t', t.resize k = .ok t' := by
  unfold AllocTable.resize
  repeat' split
  · exact .inl rfl
  · exact .inr ⟨_, rfl⟩
  · exact .inr ⟨_, rfl⟩

theorem grow_cases (t : AllocTable) (k : Int) :
    (if (t.n : Int) < k then t.resize k else .ok t) = .err ∨
      ∃ t', (if (t.n : Int) < k then t.resize k else .ok t) = .ok t' := by
  split
  · exact resize_cases t k
  · exact .inr ⟨t, rfl⟩

theorem memReadMsat_tracks (io : IoHandle) (dev : Dev) (t : MTable) (id count : Nat) :
    Tracks (memReadMsat io dev t id count : Mem σ (MTable × Bool))
      (readMsat io dev t.table id count).res (·.2) (·.1.table) := by
  unfold memReadMsat readMsat
  by_cases h1 : io.sectorSize = 0 ∨ io.sectorSize > MAX_ALLOC
  · rw [if_pos h1, if_pos h1]; exact fails_tracks (fails_pure rfl)
  rw [if_neg h1, if_neg h1]
  by_cases h2 : t.table.n < 109
  · rw [if_pos h2, if_pos h2]; exact fails_tracks (fails_pure rfl)
  rw [if_neg h2, if_neg h2]
  by_cases h3 : id = EOC ∧ count = 0
  · rw [if_pos h3, if_pos h3]
    exact tracks_ret rfl rfl
  rw [if_neg h3, if_neg h3]
  by_cases h4 : id = EOC
  · rw [if_pos h4, if_pos h4]; exact fails_tracks (fails_pure rfl)
  rw [if_neg h4, if_neg h4]
  dsimp only
  by_cases h5 : io.sectorSize / 4 = 0
  · rw [if_pos h5, if_pos h5]; exact fails_tracks (fails_pure rfl)
  rw [if_neg h5, if_neg h5]
  refine tracks_congr (tracks_bind (w := fun t => (msatLoop io dev (io.sectorSize / 4 - 1) tableFuel
    id 109 t).res) (memGrow_tracks t _) (fun a ha _ => ?_) (fun a ha => ?_) ?_) ?_
  · cases a with
    | none => cases ha
    | some t' =>
      dsimp only [Option.getD_some]
      refine tracks_congr (tracks_bind (w := fun t => .ok t) (memWithBuffer_tracks _)
        (fun a ha _ => ?_) (fun a ha => ?_) ?_) ?_
      · cases a with
        | none => cases ha
        | some ids => exact tracks_ret rfl rfl
      · cases a with
        | none => exact fails_pure rfl
        | some ids => cases ha
      · intro h; exact absurd (h none) (by simp)
      · cases (msatLoop io dev (io.sectorSize / 4 - 1) tableFuel id 109 t'.table).res <;> rfl
  · cases a with
    | none => exact fails_pure rfl
    | some ids => cases ha
  · intro h; exact absurd (h none) (by simp)
  · rcases grow_cases t.table (toInt32 (109 + (if count = 0 then 1 else count) * (io.sectorSize / 4 - 1))) with
      hg | ⟨t', hg⟩ <;> rw [hg] <;> rfl

/-! ### The directory -/

theorem memReadEntry_tracks (e : Endian) (index : Nat) (data : Bytes) :
    Tracks (memReadEntry e index data : Mem σ (Option MEntry)) (readDirEntry e index data)
      (fun _ => true) (·.map (·.entry)) := by
  unfold memReadEntry
  refine tracks_step (v := .ok ()) (w := fun _ => readDirEntry e index data) tracks_alloc fun b _ => ?_
  refine tracks_congr (tracks_step (w := fun t => .ok t)
    (tracks_onError (tracks_of _) (quiet_release _)) fun o _ => ?_) ?_
  · cases o with
    | none =>
      exact tracks_quiet (quiet_use _) (tracks_quiet (quiet_release _)
        (tracks_ret rfl rfl))
    | some d =>
      dsimp only
      split
      · exact tracks_step (v := .ok ()) (w := fun _ => .ok (some d))
          (tracks_onError tracks_alloc (quiet_release _)) fun i _ =>
          tracks_ret rfl rfl
      · exact tracks_ret rfl rfl
  · cases readDirEntry e index data <;> rfl

/-- The entries of a list of elements. -/
def entriesOf' (l : List MElem) : List DirEntry := l.map (·.value.entry)

theorem dirSlotLoop_bind (e : Endian) (sector : Bytes) (k pos index : Nat) (acc : List DirEntry) :
    dirSlotLoop e sector (k + 1) pos index acc =
      ((rdBytes sector pos dirEntrySize >>= fun data => readDirEntry e index data) >>= fun o =>
        dirSlotLoop e sector k (pos + dirEntrySize) (index + 1) (acc ++ o.toList)) := by
  conv => lhs; unfold dirSlotLoop
  unfold rdBytes
  by_cases h : pos + dirEntrySize ≤ sector.length
  · rw [if_pos h]
    dsimp only [Res.ok_bind]
    rcases readDirEntry e index ((sector.drop pos).take dirEntrySize) with (_ | d) | _ | _ | _
    · simp
    · simp
    all_goals rfl
  · rw [if_neg h]
    rfl

theorem memSlotLoop_tracks (e : Endian) (sector : Bytes) :
    ∀ (k pos index : Nat) (acc : List MElem),
      Tracks (memSlotLoop e sector k pos index acc : Mem σ (List MElem × Bool))
        (dirSlotLoop e sector k pos index (entriesOf' acc)) (·.2) (fun r => entriesOf' r.1)
  | 0, _, _, acc => tracks_ret rfl rfl
  | k + 1, pos, index, acc => by
    rw [dirSlotLoop_bind]
    unfold memSlotLoop
    refine tracks_try (view := fun o : Option MEntry => o.map (·.entry)) ?_ (fails_pure rfl) fun o _ => ?_
    · exact tracks_step (tracks_of _) fun data _ => memReadEntry_tracks e index data
    cases o with
    | none =>
      simp only [Option.map_none, Option.toList_none, List.append_nil]
      exact memSlotLoop_tracks e sector k _ _ acc
    | some d =>
      dsimp only
      refine tracks_try (v := .ok ())
        (w := fun _ => dirSlotLoop e sector k (pos + dirEntrySize) (index + 1) (entriesOf' acc ++ [d.entry]))
        (tracks_onError tracks_alloc (quiet_freeEntry _)) (fails_pure rfl) fun x _ => ?_
      have : entriesOf' acc ++ [d.entry] = entriesOf' (acc ++ [⟨x, d⟩]) := by simp [entriesOf']
      rw [this]
      exact memSlotLoop_tracks e sector k _ _ _

theorem dirLoop_bind (io : IoHandle) (dev : Dev) (sat : AllocTable) (fuel id : Nat) (seen : List Nat)
    (index : Nat) (acc : List DirEntry) (h1 : ¬ (id = EOC ∨ id = UNUSED)) (h2 : id ∉ seen) :
    (dirLoop io dev sat (fuel + 1) id seen index acc).res =
      match dev.get (sectorOffset id io.sectorSize) io.sectorSize with
      | none => .err
      | some sector =>
        dirSlotLoop io.byteOrder sector (io.sectorSize / dirEntrySize) 0 index acc >>= fun acc =>
        sat.next id >>= fun nextId =>
        (dirLoop io dev sat fuel nextId (id :: seen) (index + io.sectorSize / dirEntrySize) acc).res := by
  conv => lhs; unfold dirLoop
  rw [if_neg h1]
  dsimp only
  rw [if_neg h2]
  cases dev.get (sectorOffset id io.sectorSize) io.sectorSize with
  | none => rfl
  | some sector =>
    dsimp only
    cases dirSlotLoop io.byteOrder sector (io.sectorSize / dirEntrySize) 0 index acc with
    | ok acc =>
      dsimp only [Res.ok_bind]
      cases sat.next id <;> rfl
    | _ => rfl

theorem memDirLoop_tracks (io : IoHandle) (dev : Dev) (sat : AllocTable) :
    ∀ (fuel id : Nat) (seen : List Nat) (index : Nat) (acc : List MElem),
      Tracks (memDirLoop io dev sat fuel id seen index acc : Mem σ (List MElem × Bool))
        (dirLoop io dev sat fuel id seen index (entriesOf' acc)).res (·.2) (fun r => entriesOf' r.1) := by
  intro fuel
  induction fuel with
  | zero =>
    intro id seen index acc
    unfold memDirLoop dirLoop
    split
    · exact tracks_ret rfl rfl
    · exact fails_tracks (fails_pure rfl)
  | succ fuel ih =>
    intro id seen index acc
    by_cases h1 : id = EOC ∨ id = UNUSED
    · unfold memDirLoop dirLoop
      rw [if_pos h1, if_pos h1]
      exact tracks_ret rfl rfl
    by_cases h2 : id ∈ seen
    · unfold memDirLoop dirLoop
      rw [if_neg h1, if_neg h1]
      dsimp only
      rw [if_pos h2, if_pos h2]
      exact tracks_ret rfl rfl
    rw [dirLoop_bind io dev sat fuel id seen index _ h1 h2]
    unfold memDirLoop
    rw [if_neg h1]
    dsimp only
    rw [if_neg h2]
    cases dev.get (sectorOffset id io.sectorSize) io.sectorSize with
    | none => exact fails_tracks (fails_pure rfl)
    | some sector =>
      dsimp only
      refine tracks_bind (memSlotLoop_tracks _ _ _ _ _ _) (fun r hr _ => ?_) (fun r hr => ?_) ?_
      · rw [if_pos hr]
        refine tracks_try (view := fun n : Nat => n) ?_ (fails_pure rfl) fun n _ => ih n _ _ _
        exact tracks_step (v := .ok ()) (w := fun _ => sat.next _) tracks_ask fun _ _ => tracks_of _
      · rw [if_neg (by rw [hr]; simp)]
        exact fails_pure rfl
      · intro h; exact absurd (h ([], false)) (by simp)

theorem fails_memEmptyList (acc : List MElem) :
    Fails (memEmptyList acc : Mem σ (List MElem × Bool)) (·.2) :=
  fails_quiet (quiet_forEach (quiet_freeElem quiet_freeEntry) _) (fails_pure rfl)

/-- The outcome of the directory reader, with the list. -/
def directoryValue (io : IoHandle) (dev : Dev) (sat : AllocTable) (root : Nat) :
    Res (List DirEntry) :=
  (readDirectory io dev sat [] root).1.res >>= fun _ => .ok (readDirectory io dev sat [] root).2

theorem memReadDirectory_tracks (io : IoHandle) (dev : Dev) (sat : AllocTable) (root : Nat) :
    Tracks (memReadDirectory io dev sat [] root : Mem σ (List MElem × Bool))
      (directoryValue io dev sat root) (·.2) (fun r => entriesOf' r.1) := by
  unfold memReadDirectory directoryValue readDirectory
  split
  · exact fails_tracks (fails_pure rfl)
  split
  · exact fails_tracks (fails_pure rfl)
  refine tracks_congr (tracks_try (v := .ok ()) (w := fun _ =>
    (dirLoop io dev sat (maxDirDepth + 1) root [] 0 []).res) tracks_alloc (fails_memEmptyList _) fun b _ => ?_) ?_
  · refine tracks_try (v := .ok ()) (w := fun _ =>
      (dirLoop io dev sat (maxDirDepth + 1) root [] 0 []).res) tracks_alloc
      (fails_quiet (quiet_release _) (fails_memEmptyList _)) fun c _ => ?_
    refine tracks_congr (tracks_bind (w := fun l => .ok l)
      (memDirLoop_tracks io dev sat (maxDirDepth + 1) root [] 0 []) (fun r hr _ => ?_) (fun r hr => ?_) ?_) ?_
    · refine tracks_quiet (quiet_release _) (tracks_quiet (quiet_release _) ?_)
      rw [if_pos hr]
      exact tracks_ret hr rfl
    · refine fails_quiet (quiet_release _) (fails_quiet (quiet_release _) ?_)
      rw [if_neg (by rw [hr]; simp)]
      exact fails_memEmptyList _
    · intro h; exact absurd (h ([], false)) (by simp)
    · show (dirLoop io dev sat (maxDirDepth + 1) root [] 0 []).res >>= _ = _
      cases (dirLoop io dev sat (maxDirDepth + 1) root [] 0 []).res <;> rfl
  · show (dirLoop io dev sat (maxDirDepth + 1) root [] 0 []).res = _
    dsimp only
    cases (dirLoop io dev sat (maxDirDepth + 1) root [] 0 []).res <;> rfl

end Lemmas
end Olecf
