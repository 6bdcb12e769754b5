import Verif.Spec.Fuse
import Verif.Props.Mount
import Verif.Props.ExportDoc

/-
  C62 to C65: the operations of a mounted file system.
-/

namespace Olecf.Props
open Olecf Olecf.Spec

/-! ### C63: the history of a mount -/

theorem streamSeek_set (d : DirEntry) {a b : Int} (ha : 0 ≤ a) (hb : 0 ≤ b) (offset : Int) :
    (streamSeek d a offset .set).1 = (streamSeek d b offset .set).1 ∧
    ∀ v, (streamSeek d a offset .set).1 = .ok v →
      (streamSeek d a offset .set).2 = (streamSeek d b offset .set).2 := by
  unfold streamSeek
  by_cases ht : d.type ≠ typeStream
  · rw [if_pos ht, if_pos ht]; exact ⟨rfl, fun v h => by cases h⟩
  · have h1 : ¬ a < 0 := by omega
    have h2 : ¬ b < 0 := by omega
    have h3 : ¬ (Whence.set = .other) := by decide
    simp only [if_neg ht, if_neg h1, if_neg h2, if_neg h3]
    split
    · exact ⟨rfl, fun v h => by cases h⟩
    · split
      · exact ⟨rfl, fun v h => by cases h⟩
      · exact ⟨rfl, fun _ _ => rfl⟩

/-- A read at an offset does not depend on the current offset. -/
theorem streamReadAt_res (f : FileCtx) (d : DirEntry) {a b : Int} (ha : 0 ≤ a) (hb : 0 ≤ b)
    (size : Nat) (offset : Int) :
    (streamReadAt f d a size offset).1 = (streamReadAt f d b size offset).1 := by
  obtain ⟨h1, h2⟩ := streamSeek_set d ha hb offset
  unfold streamReadAt
  generalize streamSeek d a offset .set = x at h1 h2 ⊢
  generalize streamSeek d b offset .set = y at h1 h2 ⊢
  obtain ⟨x1, x2⟩ := x
  obtain ⟨y1, y2⟩ := y
  cases h1
  cases x1 with
  | ok v => cases h2 v rfl; rfl
  | _ => rfl

theorem mountRead_res (f : FileCtx) (e : MountEntry) {a b : Int} (ha : 0 ≤ a) (hb : 0 ≤ b)
    (size : Nat) (offset : Int) :
    (mountRead f e a size offset).1 = (mountRead f e b size offset).1 := by
  unfold mountRead
  split
  · rfl
  · exact streamReadAt_res f _ ha hb size offset

theorem mountRead_nonneg (f : FileCtx) (e : MountEntry) {a : Int} (ha : 0 ≤ a) (size : Nat)
    (offset : Int) : 0 ≤ (mountRead f e a size offset).2 := by
  unfold mountRead
  split
  · exact ha
  · exact readAt_nonneg f _ ha size offset

/-- What a read does to a file handle. -/
theorem fuseRead_some (env : FuseEnv) (h : FuseHandle) (hc : 0 ≤ h.cur) (size : Nat) (offset : Int) :
    (fuseRead env size offset (some h)).1 = (fuseRead env size offset (some ⟨h.entry, 0⟩)).1 ∧
    ∃ c, 0 ≤ c ∧ (fuseRead env size offset (some h)).2 = some ⟨h.entry, c⟩ := by
  unfold fuseRead
  split
  · exact ⟨rfl, h.cur, hc, rfl⟩
  · simp only []
    have h1 := mountRead_res env.ctx h.entry hc (Int.le_refl 0) size offset
    have h2 := mountRead_nonneg env.ctx h.entry hc size offset
    generalize mountRead env.ctx h.entry h.cur size offset = x at h1 h2 ⊢
    generalize mountRead env.ctx h.entry 0 size offset = y at h1 ⊢
    obtain ⟨⟨x0, x1⟩, x2⟩ := x
    obtain ⟨⟨y0, y1⟩, y2⟩ := y
    cases h1
    cases x1 <;> exact ⟨rfl, x2, h2, rfl⟩

theorem fuseRead_none (env : FuseEnv) (size : Nat) (offset : Int) :
    (fuseRead env size offset none).2 = none := by
  unfold fuseRead
  split <;> rfl

/-- The handle `i` is open on the entry. -/
def OpenOn (st : FuseState) (i : Nat) (e : MountEntry) : Prop :=
  ∃ c, 0 ≤ c ∧ st.handles[i]? = some (some ⟨e, c⟩)

theorem openOn_step (env : FuseEnv) {st : FuseState} {i : Nat} {e : MountEntry} (h : OpenOn st i e)
    (op : FuseOp) (hop : ¬ Releases i op) : OpenOn (fuseStep env st op).2 i e := by
  obtain ⟨c, hc, hi⟩ := h
  have hlt : i < st.handles.length := (List.getElem?_eq_some_iff.1 hi).1
  have hopened : ∀ r, OpenOn (fuseOpened st r).2 i e := by
    intro r
    rcases r with (x | x) | _ | _ | _
    · exact ⟨c, hc, hi⟩
    · exact ⟨c, hc, by
        show (st.handles ++ [some x])[i]? = _
        rw [List.getElem?_append_left hlt]; exact hi⟩
    · exact ⟨c, hc, hi⟩
    · exact ⟨c, hc, hi⟩
    · exact ⟨c, hc, hi⟩
  cases op with
  | «open» path flags => exact hopened _
  | opendir path => exact hopened _
  | readdir j => exact ⟨c, hc, hi⟩
  | getattr p => exact ⟨c, hc, hi⟩
  | release j =>
    have hj : j ≠ i := fun hj => hop (Or.inl (by rw [hj]))
    exact ⟨c, hc, by
      show (st.handles.set j none)[i]? = _
      rw [List.getElem?_set_ne hj]; exact hi⟩
  | releasedir j =>
    have hj : j ≠ i := fun hj => hop (Or.inr (by rw [hj]))
    exact ⟨c, hc, by
      show (st.handles.set j none)[i]? = _
      rw [List.getElem?_set_ne hj]; exact hi⟩
  | read j size offset =>
    by_cases hj : j = i
    · subst hj
      have hh : st.handle j = some ⟨e, c⟩ := by unfold FuseState.handle; rw [hi]; rfl
      obtain ⟨_, c', hc', h2⟩ := fuseRead_some env ⟨e, c⟩ hc size offset
      refine ⟨c', hc', ?_⟩
      show (st.handles.set j (fuseRead env size offset (st.handle j)).2)[j]? = _
      rw [hh, h2, List.getElem?_set_self hlt]
    · refine ⟨c, hc, ?_⟩
      show (st.handles.set j _)[i]? = _
      rw [List.getElem?_set_ne hj]; exact hi

theorem openOn_after (env : FuseEnv) {i : Nat} {e : MountEntry} : ∀ (ops : List FuseOp)
    {st : FuseState}, OpenOn st i e → (∀ op ∈ ops, ¬ Releases i op) →
    OpenOn (fuseAfter env st ops) i e
  | [], _, h, _ => h
  | op :: ops, st, h, hops =>
    openOn_after env ops (openOn_step env h op (hops op (by simp)))
      fun o ho => hops o (by simp [ho])

theorem fuseOpened_opened {st : FuseState} {r : FuseRes FuseHandle} {i : Nat}
    (h : (fuseOpened st r).1 = .ok (.ok (.opened i))) :
    ∃ hd, r = .ok (.ok hd) ∧ i = st.handles.length ∧
      (fuseOpened st r).2 = ⟨st.handles ++ [some hd], st.live + 1⟩ := by
  rcases r with (x | x) | _ | _ | _
  · cases h
  · cases h; exact ⟨x, rfl, rfl, rfl⟩
  all_goals cases h

theorem fuseLookup_cur {env : FuseEnv} {path : Bytes} {h : FuseHandle}
    (hl : fuseLookup env path = .ok (.ok h)) : h = ⟨h.entry, 0⟩ ∧
      mountEntryByPath env.k env.cmp (some env.tree) path = .ok (some h.entry) := by
  unfold fuseLookup at hl
  split at hl
  · rename_i e he
    cases hl
    exact ⟨rfl, he⟩
  all_goals cases hl

theorem fuseOpen_ok {env : FuseEnv} {path : Bytes} {flags : Nat} {h : FuseHandle}
    (hl : fuseOpen env path flags none = .ok (.ok h)) :
    flags % 4 = 0 ∧ fuseLookup env path = .ok (.ok h) := by
  unfold fuseOpen at hl
  rw [if_neg (by simp)] at hl
  split at hl
  · cases hl
  · rename_i hf
    exact ⟨by omega, hl⟩

/-- C63: a read from a file that was opened at any point of any history gives, after any further
  operations, on this and on other files and directories, up to its release, what the same read gives
  right after the file was opened in a new mount. -/
theorem C63_read_history_independent (env : FuseEnv) (before later : List FuseOp) (path : Bytes)
    (flags i : Nat)
    (hopen : (fuseStep env (fuseRun env before) (.open path flags)).1 = .ok (.ok (.opened i)))
    (hlater : ∀ op ∈ later, ¬ Releases i op) (size : Nat) (offset : Int) :
    (fuseStep env (fuseAfter env (fuseStep env (fuseRun env before) (.open path flags)).2 later)
      (.read i size offset)).1 =
    (fuseStep env (fuseRun env [.open path flags]) (.read 0 size offset)).1 := by
  obtain ⟨h, hr, hi, hst⟩ := fuseOpened_opened hopen
  obtain ⟨hcur, _⟩ := fuseLookup_cur (fuseOpen_ok hr).2
  have hon : OpenOn (fuseStep env (fuseRun env before) (.open path flags)).2 i h.entry := by
    refine ⟨0, Int.le_refl 0, ?_⟩
    show (fuseOpened (fuseRun env before) (fuseOpen env path flags none)).2.handles[i]? = _
    rw [hst, hi, ← hcur]
    exact List.getElem?_concat_length
  obtain ⟨c, hc, hh⟩ := openOn_after env later hon hlater
  have h1 : ∀ st : FuseState, ∀ j c, st.handles[j]? = some (some ⟨h.entry, c⟩) → 0 ≤ c →
      (fuseStep env st (.read j size offset)).1 =
        fuseAnswer .data (fuseRead env size offset (some ⟨h.entry, 0⟩)).1 := by
    intro st j c hj hc
    show fuseAnswer .data (fuseRead env size offset (st.handle j)).1 = _
    have : st.handle j = some ⟨h.entry, c⟩ := by unfold FuseState.handle; rw [hj]; rfl
    rw [this, (fuseRead_some env ⟨h.entry, c⟩ hc size offset).1]
  rw [h1 _ i c hh hc]
  refine (h1 _ 0 0 ?_ (Int.le_refl 0)).symm
  show (fuseOpened ⟨[], 0⟩ (fuseOpen env path flags none)).2.handles[0]? = _
  rw [hr, hcur]
  rfl

/-- C63: the same for the listing of an open directory. -/
theorem C63_listing_history_independent (env : FuseEnv) (before later : List FuseOp) (path : Bytes)
    (i : Nat) (hopen : (fuseStep env (fuseRun env before) (.opendir path)).1 = .ok (.ok (.opened i)))
    (hlater : ∀ op ∈ later, ¬ Releases i op) :
    (fuseStep env (fuseAfter env (fuseStep env (fuseRun env before) (.opendir path)).2 later)
      (.readdir i)).1 =
    (fuseStep env (fuseRun env [.opendir path]) (.readdir 0)).1 := by
  obtain ⟨h, hr, hi, hst⟩ := fuseOpened_opened hopen
  have hr' : fuseLookup env path = .ok (.ok h) := hr
  obtain ⟨hcur, _⟩ := fuseLookup_cur hr'
  have hon : OpenOn (fuseStep env (fuseRun env before) (.opendir path)).2 i h.entry := by
    refine ⟨0, Int.le_refl 0, ?_⟩
    show (fuseOpened (fuseRun env before) (fuseOpendir env path none)).2.handles[i]? = _
    rw [hst, hi, ← hcur]
    exact List.getElem?_concat_length
  obtain ⟨c, hc, hh⟩ := openOn_after env later hon hlater
  have h1 : ∀ st : FuseState, ∀ j c, st.handles[j]? = some (some ⟨h.entry, c⟩) →
      (fuseStep env st (.readdir j)).1 =
        fuseAnswer .entries (fuseReaddir env (some ⟨h.entry, 0⟩)) := by
    intro st j c hj
    show fuseAnswer .entries (fuseReaddir env (st.handle j)) = _
    have : st.handle j = some ⟨h.entry, c⟩ := by unfold FuseState.handle; rw [hj]; rfl
    rw [this]
    rfl
  rw [h1 _ i c hh]
  refine (h1 _ 0 0 ?_).symm
  show (fuseOpened ⟨[], 0⟩ (fuseOpendir env path none)).2.handles[0]? = _
  rw [hr, hcur]
  rfl

/-! ### C64: what is opened is released -/

theorem filter_set_none {α : Type} : ∀ (l : List (Option α)) (i : Nat),
    ((l.set i none).filter (·.isSome)).length =
      (l.filter (·.isSome)).length - (if (l[i]?).join.isSome then 1 else 0) ∧
    ((l[i]?).join.isSome → 1 ≤ (l.filter (·.isSome)).length)
  | [], i => by simp
  | a :: l, 0 => by cases a <;> simp
  | a :: l, i + 1 => by
    obtain ⟨h1, h2⟩ := filter_set_none l i
    cases a with
    | none => simpa using ⟨h1, h2⟩
    | some a =>
      simp only [List.set_cons_succ, List.getElem?_cons_succ, List.filter_cons, Option.isSome_some,
        if_true, List.length_cons, h1]
      refine ⟨?_, fun _ => by omega⟩
      split
      · rename_i h; have := h2 h; omega
      · omega

theorem filter_set_some {α : Type} : ∀ (l : List (Option α)) (i : Nat) (x : Option α),
    x.isSome = (l[i]?).join.isSome →
    ((l.set i x).filter (·.isSome)).length = (l.filter (·.isSome)).length
  | [], i, x, _ => by simp
  | a :: l, 0, x, h => by
    simp only [List.getElem?_cons_zero, Option.join_some] at h
    cases a <;> cases x <;> simp_all
  | a :: l, i + 1, x, h => by
    have := filter_set_some l i x (by simpa using h)
    cases a <;> simpa using this

/-- Every operation but the release of a directory keeps the balance. -/
theorem live_step (env : FuseEnv) (st : FuseState) (op : FuseOp)
    (h : st.live = Spec.FuseState.openHandles st) (hop : ∀ i, op ≠ .releasedir i) :
    (fuseStep env st op).2.live = Spec.FuseState.openHandles (fuseStep env st op).2 := by
  have hopened : ∀ r, (fuseOpened st r).2.live = Spec.FuseState.openHandles (fuseOpened st r).2 := by
    intro r
    rcases r with (x | x) | _ | _ | _
    · exact h
    · show st.live + 1 = ((st.handles ++ [some x]).filter (·.isSome)).length
      rw [List.filter_append, List.length_append, h]
      rfl
    all_goals exact h
  cases op with
  | «open» path flags => exact hopened _
  | opendir path => exact hopened _
  | readdir j => exact h
  | getattr p => exact h
  | releasedir j => exact absurd rfl (hop j)
  | release j =>
    show (if (st.handle j).isSome then st.live - 1 else st.live) =
      ((st.handles.set j none).filter (·.isSome)).length
    rw [(filter_set_none st.handles j).1, h]
    unfold FuseState.handle Spec.FuseState.openHandles
    split <;> rfl
  | read j size offset =>
    show st.live = ((st.handles.set j (fuseRead env size offset (st.handle j)).2).filter
      (·.isSome)).length
    rw [filter_set_some, h]
    · rfl
    · show _ = (st.handle j).isSome
      unfold fuseRead
      split
      · rfl
      · cases st.handle j with
        | none => rfl
        | some x =>
          simp only []
          split <;> rfl

/-- C64 for histories in which no directory is released: the file entries in memory are those of the
  open files and directories; when all are released there are none.

  Missing for the full property: directories are released without freeing the file entry
  (`C64_directory_leak_violated`). -/
theorem C64_open_handles_partial (env : FuseEnv) (ops : List FuseOp)
    (hops : ∀ op ∈ ops, ∀ i, op ≠ .releasedir i) :
    (fuseRun env ops).live = Spec.FuseState.openHandles (fuseRun env ops) := by
  have key : ∀ (ops : List FuseOp) (st : FuseState), st.live = Spec.FuseState.openHandles st →
      (∀ op ∈ ops, ∀ i, op ≠ .releasedir i) →
      (ops.foldl (fun st op => (fuseStep env st op).2) st).live =
        Spec.FuseState.openHandles (ops.foldl (fun st op => (fuseStep env st op).2) st) := by
    intro ops
    induction ops with
    | nil => intro st h _; exact h
    | cons op ops ih =>
      intro st h hops
      exact ih _ (live_step env st op h (hops op (by simp))) fun o ho => hops o (by simp [ho])
  exact key ops ⟨[], 0⟩ rfl hops

/-- Opening and releasing the root directory `n` times. -/
def rootVisits : Nat → List FuseOp
  | 0 => []
  | n + 1 => rootVisits n ++ [.opendir [0x2f], .releasedir n]

/-- C64 fails: in every mount, opening and releasing the root directory `n` times leaves `n` file
  entries in memory, though nothing is open. -/
theorem C64_directory_leak_violated (env : FuseEnv) (hk : IsUtf8 env.k) (n : Nat) :
    (fuseRun env (rootVisits n)).live = n ∧
    Spec.FuseState.openHandles (fuseRun env (rootVisits n)) = 0 := by
  have hroot : fuseOpendir env [0x2f] none = .ok (.ok ⟨⟨[], ⟨none, env.tree.root⟩⟩, 0⟩) := by
    unfold fuseOpendir fuseLookup
    rw [if_neg (by simp), C44_root hk env.cmp env.tree]
  have key : ∀ n, fuseRun env (rootVisits n) = ⟨List.replicate n none, n⟩ := by
    intro n
    induction n with
    | zero => rfl
    | succ n ih =>
      unfold fuseRun at ih ⊢
      rw [rootVisits, List.foldl_append, ih]
      simp only [List.foldl_cons, List.foldl_nil, fuseStep, hroot, fuseOpened]
      have : (List.replicate n (none : Option FuseHandle) ++
          [some (⟨⟨[], ⟨none, env.tree.root⟩⟩, 0⟩ : FuseHandle)]).set n none = List.replicate (n + 1) none := by
        rw [List.set_append_right _ _ (by simp)]
        simp [List.replicate_succ']
      rw [this]
  rw [key]
  refine ⟨rfl, ?_⟩
  show ((List.replicate n (none : Option FuseHandle)).filter (·.isSome)).length = 0
  simp

/-! ### C65: attributes -/

theorem entryStat_ok {env : FuseEnv} {e : MountEntry} {t : Int}
    (ht : mountTime e.item.entry.modified = .ok t) (hs : e.item.entry.size < 2 ^ 63) :
    entryStat env e = .ok ⟨e.item.entry.size, fileMode e, if mountIsDirectory e then 2 else 1,
      timeSpec env.nsec env.mounted, timeSpec env.nsec env.mounted, timeSpec env.nsec t⟩ := by
  unfold entryStat setStatInfo mountSize
  rw [ht]
  simp only []
  rw [if_neg (by omega)]
  unfold fileMode
  cases mountIsDirectory e <;> rfl

theorem timeSpec_nonneg (nsec : Bool) {ns : Int} (h : 0 ≤ ns) :
    ValidTime (timeSpec nsec ns) ∧ (nsec = true → instant (timeSpec nsec ns) = ns) ∧
    (nsec = false → instant (timeSpec nsec ns) ≤ ns ∧
      ns < instant (timeSpec nsec ns) + 1000000000) := by
  unfold ValidTime instant timeSpec
  have h1 := Int.tdiv_eq_ediv_of_nonneg h (b := 1000000000)
  have h2 := Int.tmod_eq_emod_of_nonneg h (b := 1000000000)
  cases nsec <;> simp only [h1, h2, if_true, if_false, Bool.false_eq_true] <;>
    refine ⟨⟨by omega, by omega⟩, by simp <;> omega, by simp <;> omega⟩

/-- C65: the attributes of a path, where there are any, are those of the entry that the path leads to:
  its size, whether it is a directory, two links for a directory and one for a file, the mount time as the time of access and of change. -/
theorem C65_attributes (env : FuseEnv) (path : Bytes) (s : StatInfo)
    (h : fuseGetattr env path = .ok (.ok s)) :
    ∃ e t, mountEntryByPath env.k env.cmp (some env.tree) path = .ok (some e) ∧
      mountTime e.item.entry.modified = .ok t ∧
      s.size = e.item.entry.size ∧
      (IsDirMode s.mode ↔ e.item.entry.type = 1 ∨ e.item.entry.type = 5) ∧
      (IsFileMode s.mode ↔ ¬ (e.item.entry.type = 1 ∨ e.item.entry.type = 5)) ∧
      s.mode % 0x1000 &&& 0o222 = 0 ∧
      s.nlink = (if e.item.entry.type = 1 ∨ e.item.entry.type = 5 then 2 else 1) ∧
      s.atime = timeSpec env.nsec env.mounted ∧ s.ctime = timeSpec env.nsec env.mounted ∧
      s.mtime = timeSpec env.nsec t := by
  unfold fuseGetattr at h
  split at h
  · rename_i e he
    unfold entryStat at h
    cases ht : mountTime e.item.entry.modified with
    | ok t =>
      rw [ht] at h
      simp only [] at h
      unfold setStatInfo at h
      split at h
      · rename_i s' hs
        split at hs
        · cases hs
        · cases hs
          cases h
          refine ⟨e, t, he, ht, rfl, ?_⟩
          simp only [fileMode]
          unfold mountIsDirectory
          by_cases hd : e.item.entry.type = 1 ∨ e.item.entry.type = 5
          · simp only [hd, decide_true, if_true]
            refine ⟨by decide, by decide, by decide, by decide, trivial, trivial, trivial⟩
          · simp only [hd, decide_false, Bool.false_eq_true, if_false]
            refine ⟨by decide, by decide, by decide, by decide, trivial, trivial, trivial⟩
      all_goals cases h
    | _ => rw [ht] at h; cases h
  all_goals cases h

/-- C65, the time of modification, for instants from 1970 on: it is valid, and it is the stored instant,
  exactly where the structure has nanoseconds, else without the fraction of the second.

  Missing for the full property: instants before 1970 (`C65_before_1970_violated`), instants that the
  conversion does not cover (C54). -/
theorem C65_modification_time_partial (env : FuseEnv) (path : Bytes) (s : StatInfo) (e : MountEntry)
    (h : fuseGetattr env path = .ok (.ok s))
    (he : mountEntryByPath env.k env.cmp (some env.tree) path = .ok (some e))
    (h64 : e.item.entry.modified < 2 ^ 64) (h0 : e.item.entry.modified ≠ 0)
    (h1970 : 0 ≤ filetimeNanoseconds e.item.entry.modified) :
    ValidTime s.mtime ∧
    (env.nsec = true → instant s.mtime = filetimeNanoseconds e.item.entry.modified) ∧
    (env.nsec = false → instant s.mtime ≤ filetimeNanoseconds e.item.entry.modified ∧
      filetimeNanoseconds e.item.entry.modified < instant s.mtime + 1000000000) := by
  obtain ⟨e', t, he', ht, _, _, _, _, _, _, _, hm⟩ := C65_attributes env path s h
  rw [he] at he'
  cases he'
  have hlt : t = filetimeNanoseconds e.item.entry.modified := by
    by_cases hin : filetimeNanoseconds e.item.entry.modified < 2 ^ 63
    · rw [C54_mounted_time_partial _ h64 h0 (by omega) hin] at ht
      exact (Res.ok.inj ht).symm
    · rw [C54_overflow _ h64 h0 (by omega)] at ht
      cases ht
  subst hlt
  rw [hm]
  exact timeSpec_nonneg env.nsec h1970

/-- C65: an instant that is not set is shown as the start of 1970. -/
theorem C65_unset (nsec : Bool) : timeSpec nsec 0 = (0, 0) := by cases nsec <;> rfl

/-- C65 fails for instants before 1970 that are not full seconds: where the structure has nanoseconds
  they are negative, else the time shown is later than the stored one. -/
theorem C65_before_1970_violated (ns : Int) (h : ns < 0) (hfrac : ns % 1000000000 ≠ 0) :
    ¬ ValidTime (timeSpec true ns) ∧ ns < instant (timeSpec false ns) := by
  unfold ValidTime instant timeSpec
  have h1 : ns.tdiv 1000000000 = -((-ns) / 1000000000) := by
    rw [← Int.neg_neg ns, Int.neg_tdiv, Int.tdiv_eq_ediv_of_nonneg (by omega), Int.neg_neg]
  have h2 : ns.tmod 1000000000 = -((-ns) % 1000000000) := by
    rw [← Int.neg_neg ns, Int.neg_tmod, Int.tmod_eq_emod_of_nonneg (by omega), Int.neg_neg]
  simp only [h1, h2, if_true, if_false, Bool.false_eq_true]
  omega

/-- Such an instant: 100 nanoseconds before 1970. -/
example : mountTime 116444735999999999 = .ok (-100) ∧ timeSpec true (-100) = (0, -100) ∧
    timeSpec false (-100) = (0, 0) := by decide +kernel

end Olecf.Props
