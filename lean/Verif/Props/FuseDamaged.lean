import Verif.Props.ExportDamaged
import Verif.Props.FuseSafe

/-
  C122: mounts of damaged files.
-/

namespace Olecf.Props
open Olecf.Spec

/-! ### One request -/

theorem mountRead_damaged {dev' : Dev} {f : FileCtx} (hd : Damaged dev' f.dev) (e : MountEntry) (cur : Int)
    (size : Nat) (offset : Int) {b : Bytes}
    (h : (mountRead { f with dev := dev' } e cur size offset).1.res = .ok b) :
    mountRead { f with dev := dev' } e cur size offset = mountRead f e cur size offset := by
  unfold mountRead at h ⊢
  split at h
  · cases h
  · rename_i ht
    rw [if_neg ht, if_neg ht]
    unfold streamReadAt at h ⊢
    generalize streamSeek e.item.entry cur offset .set = s at h ⊢
    obtain ⟨r, c⟩ := s
    cases r with
    | ok _ => exact (streamRead_damaged hd rfl rfl _ _ _ h).symm
    | err => rfl
    | ub => rfl
    | hang => rfl

theorem fillDir_ctx (env : FuseEnv) (f' : FileCtx) (name : Bytes) (e : Option MountEntry) :
    fillDir { env with ctx := f' } name e = fillDir env name e := by
  cases e <;> rfl

theorem fuseRead_closed (env : FuseEnv) (size : Nat) (offset : Int) :
    (fuseRead env size offset none).1 = .ok (.error .einval) := by
  unfold fuseRead
  split <;> rfl

/-- The entry of a file handle stays. -/
theorem fuseRead_entry (env : FuseEnv) (size : Nat) (offset : Int) (fh : Option FuseHandle) :
    (fuseRead env size offset fh).2.map (·.entry) = fh.map (·.entry) := by
  unfold fuseRead
  split
  · rfl
  · cases fh with
    | none => rfl
    | some h =>
      dsimp only
      cases (mountRead env.ctx h.entry h.cur size offset).1.res <;> rfl

/-- A read of a file that was just opened, on the damaged file and on the whole. -/
theorem fuseRead_damaged {env : FuseEnv} {dev' : Dev} (hd : Damaged dev' env.ctx.dev) (h : FuseHandle) (size : Nat)
    (offset : Int) {a : Except Errno Bytes}
    (ha : (fuseRead { env with ctx := { env.ctx with dev := dev' } } size offset (some h)).1 = .ok a) :
    (fuseRead env size offset (some h)).1 = .ok a ∨ a = .error .eio := by
  unfold fuseRead at ha ⊢
  by_cases hs : size > 2 ^ 31 - 1
  · rw [if_pos hs] at ha ⊢
    exact .inl ha
  · rw [if_neg hs] at ha ⊢
    have hm := @mountRead_damaged dev' env.ctx hd h.entry h.cur size offset
    dsimp only at ha ⊢
    generalize mountRead { env.ctx with dev := dev' } h.entry h.cur size offset = x at ha hm
    obtain ⟨⟨rs, r⟩, c⟩ := x
    cases r with
    | ok b =>
      rw [← hm rfl]
      exact .inl ha
    | err => exact .inr (Res.ok.inj ha).symm
    | ub => cases ha
    | hang => cases ha

/-- Two mounts have the same files and directories open. -/
def Alike (st st' : FuseState) : Prop :=
  st'.live = st.live ∧ st'.handles.map (Option.map (·.entry)) = st.handles.map (Option.map (·.entry))

theorem alike_length {st st' : FuseState} (h : Alike st st') : st'.handles.length = st.handles.length := by
  have := congrArg List.length h.2
  simpa using this

theorem alike_handle {st st' : FuseState} (h : Alike st st') (i : Nat) :
    (st'.handle i).map (·.entry) = (st.handle i).map (·.entry) := by
  have := congrArg (fun l => l[i]?) h.2
  simp only [List.getElem?_map] at this
  unfold FuseState.handle
  generalize st.handles[i]? = a at this
  generalize st'.handles[i]? = b at this
  rcases a with _ | _ | a <;> rcases b with _ | _ | b <;> simp_all

theorem alike_opened {st st' : FuseState} (h : Alike st st') (r : FuseRes FuseHandle) :
    (fuseOpened st' r).1 = (fuseOpened st r).1 ∧ Alike (fuseOpened st r).2 (fuseOpened st' r).2 := by
  rcases r with (x | x) | _ | _ | _
  · exact ⟨rfl, h⟩
  · refine ⟨?_, ?_, ?_⟩
    · show Res.ok (Except.ok (FuseAnswer.opened _)) = _
      rw [alike_length h]
      rfl
    · show st'.live + 1 = st.live + 1
      rw [h.1]
    · show (st'.handles ++ [some x]).map _ = (st.handles ++ [some x]).map _
      rw [List.map_append, List.map_append, h.2]
  all_goals exact ⟨rfl, h⟩

theorem alike_step {env : FuseEnv} (f' : FileCtx) {st st' : FuseState} (h : Alike st st') (op : FuseOp) :
    Alike (fuseStep env st op).2 (fuseStep { env with ctx := f' } st' op).2 := by
  cases op with
  | «open» path flags => exact (alike_opened h _).2
  | opendir path => exact (alike_opened h _).2
  | readdir i => exact h
  | getattr p => exact h
  | release i =>
    refine ⟨?_, ?_⟩
    · have := alike_handle h i
      have hs : (st'.handle i).isSome = (st.handle i).isSome := by
        have := congrArg Option.isSome this
        simpa using this
      show (if (st'.handle i).isSome then st'.live - 1 else st'.live) =
        if (st.handle i).isSome then st.live - 1 else st.live
      rw [hs, h.1]
    · show (st'.handles.set i none).map _ = (st.handles.set i none).map _
      rw [List.map_set, List.map_set, h.2]
  | releasedir i =>
    refine ⟨h.1, ?_⟩
    show (st'.handles.set i none).map _ = (st.handles.set i none).map _
    rw [List.map_set, List.map_set, h.2]
  | read i size offset =>
    refine ⟨h.1, ?_⟩
    show (st'.handles.set i _).map _ = (st.handles.set i _).map _
    rw [List.map_set, List.map_set, h.2]
    congr 1
    show ((fuseRead _ size offset _).2).map _ = ((fuseRead _ size offset _).2).map _
    rw [fuseRead_entry, fuseRead_entry, alike_handle h i]

theorem alike_run {env : FuseEnv} (f' : FileCtx) (ops : List FuseOp) :
    Alike (fuseRun env ops) (fuseRun { env with ctx := f' } ops) := by
  have key : ∀ (ops : List FuseOp) (st st' : FuseState), Alike st st' →
      Alike (ops.foldl (fun st op => (fuseStep env st op).2) st)
        (ops.foldl (fun st op => (fuseStep { env with ctx := f' } st op).2) st') := by
    intro ops
    induction ops with
    | nil => intro st st' h; exact h
    | cons op ops ih => intro st st' h; exact ih _ _ (alike_step f' h op)
  exact key ops _ _ ⟨rfl, rfl⟩

theorem fuseStep_read (env : FuseEnv) (st : FuseState) (i size : Nat) (offset : Int) :
    (fuseStep env st (.read i size offset)).1 = fuseAnswer .data (fuseRead env size offset (st.handle i)).1 := rfl

theorem fuseAnswer_error {f : Bytes → FuseAnswer} {r : FuseRes Bytes} {a : Except Errno FuseAnswer}
    (h : fuseAnswer f r = .ok a) : ∃ b, r = .ok b ∧ (b = .error .eio → a = .error .eio) := by
  rcases r with (x | x) | _ | _ | _
  · exact ⟨_, rfl, fun hb => by cases hb; exact (Res.ok.inj h).symm⟩
  · exact ⟨_, rfl, fun hb => by cases hb⟩
  all_goals cases h

theorem entryStat_ctx (env : FuseEnv) (f' : FileCtx) (e : MountEntry) :
    entryStat { env with ctx := f' } e = entryStat env e := rfl

theorem fuseGetattr_ctx (env : FuseEnv) (f' : FileCtx) (p : Bytes) :
    fuseGetattr { env with ctx := f' } p = fuseGetattr env p := by
  unfold fuseGetattr
  simp only [entryStat_ctx]

theorem fuseReaddir_ctx (env : FuseEnv) (f' : FileCtx) {x y : Option FuseHandle}
    (hh : y.map (·.entry) = x.map (·.entry)) : fuseReaddir { env with ctx := f' } y = fuseReaddir env x := by
  have hloop : ∀ e n k, readdirLoop { env with ctx := f' } e n k = readdirLoop env e n k := by
    intro e n
    induction n with
    | zero => intro k; rfl
    | succ n ih =>
      intro k
      unfold readdirLoop
      simp only [ih, fillDir_ctx]
  rcases x with _ | ⟨e, c⟩ <;> rcases y with _ | ⟨e', c'⟩ <;> simp at hh
  · rfl
  · subst hh
    unfold fuseReaddir
    simp only [hloop, fillDir_ctx]

theorem fuseStep_getattr (env : FuseEnv) (st : FuseState) (p : Bytes) :
    (fuseStep env st (.getattr p)).1 = fuseAnswer .stat (fuseGetattr env p) := rfl

theorem fuseStep_readdir (env : FuseEnv) (st : FuseState) (i : Nat) :
    (fuseStep env st (.readdir i)).1 = fuseAnswer .entries (fuseReaddir env (st.handle i)) := rfl

theorem read_damaged {env : FuseEnv} {dev' : Dev} (hd : Damaged dev' env.ctx.dev) {x y : Option FuseHandle}
    (hh : y.map (·.entry) = x.map (·.entry)) (hx : ∀ h, x = some h → 0 ≤ h.cur) (hy : ∀ h, y = some h → 0 ≤ h.cur)
    (size : Nat) (offset : Int) {b : Except Errno Bytes}
    (hb : (fuseRead { env with ctx := { env.ctx with dev := dev' } } size offset y).1 = .ok b) :
    (fuseRead env size offset x).1 = .ok b ∨ b = .error .eio := by
  rcases x with _ | x <;> rcases y with _ | y
  · rw [fuseRead_closed] at hb ⊢
    exact .inl hb
  · cases hh
  · cases hh
  · have he : y.entry = x.entry := Option.some.inj hh
    rw [(fuseRead_some _ y (hy y rfl) size offset).1, he] at hb
    rw [(fuseRead_some env x (hx x rfl) size offset).1]
    exact fuseRead_damaged hd _ size offset hb

theorem fuseOpen_ctx (env : FuseEnv) (f' : FileCtx) (p : Bytes) (flags : Nat) :
    fuseOpen { env with ctx := f' } p flags none = fuseOpen env p flags none := rfl

theorem fuseOpendir_ctx (env : FuseEnv) (f' : FileCtx) (p : Bytes) :
    fuseOpendir { env with ctx := f' } p none = fuseOpendir env p none := rfl

theorem fuseStep_open (env : FuseEnv) (st : FuseState) (p : Bytes) (flags : Nat) :
    (fuseStep env st (.open p flags)).1 = (fuseOpened st (fuseOpen env p flags none)).1 := rfl

theorem fuseStep_opendir (env : FuseEnv) (st : FuseState) (p : Bytes) :
    (fuseStep env st (.opendir p)).1 = (fuseOpened st (fuseOpendir env p none)).1 := rfl

/-- An answer to a request, on both mounts with the same files open. -/
theorem step_damaged {env : FuseEnv} {dev' : Dev} (hd : Damaged dev' env.ctx.dev) {st st' : FuseState}
    (hl : Alike st st') (hx : ∀ i h, st.handle i = some h → 0 ≤ h.cur) (hy : ∀ i h, st'.handle i = some h → 0 ≤ h.cur)
    (op : FuseOp) {a : Except Errno FuseAnswer}
    (ha : (fuseStep { env with ctx := { env.ctx with dev := dev' } } st' op).1 = .ok a) :
    (fuseStep env st op).1 = .ok a ∨ ((∃ i size offset, op = .read i size offset) ∧ a = .error .eio) := by
  cases op with
  | «open» path flags =>
    rw [fuseStep_open, fuseOpen_ctx, (alike_opened hl _).1] at ha
    rw [fuseStep_open]
    exact .inl ha
  | opendir path =>
    rw [fuseStep_opendir, fuseOpendir_ctx, (alike_opened hl _).1] at ha
    rw [fuseStep_opendir]
    exact .inl ha
  | getattr p =>
    rw [fuseStep_getattr, fuseGetattr_ctx] at ha
    rw [fuseStep_getattr]
    exact .inl ha
  | release i => exact .inl ha
  | releasedir i => exact .inl ha
  | readdir i =>
    rw [fuseStep_readdir, fuseReaddir_ctx env _ (alike_handle hl i)] at ha
    rw [fuseStep_readdir]
    exact .inl ha
  | read i size offset =>
    rw [fuseStep_read] at ha ⊢
    obtain ⟨b, hr, hb⟩ := fuseAnswer_error ha
    rcases read_damaged hd (alike_handle hl i) (hx i) (hy i) size offset hr with h1 | h1
    · rw [h1, ← hr]
      exact .inl ha
    · exact .inr ⟨⟨i, size, offset, rfl⟩, hb h1⟩

/-- An answer to a request, on both mounts after the same history. -/
theorem answer_damaged {env : FuseEnv} {dev' : Dev} (hd : Damaged dev' env.ctx.dev) (before : List FuseOp)
    (op : FuseOp) {a : Except Errno FuseAnswer}
    (ha : (fuseStep { env with ctx := { env.ctx with dev := dev' } }
      (fuseRun { env with ctx := { env.ctx with dev := dev' } } before) op).1 = .ok a) :
    (fuseStep env (fuseRun env before) op).1 = .ok a ∨
      ((∃ i size offset, op = .read i size offset) ∧ a = .error .eio) :=
  step_damaged hd (alike_run _ before) (fun i h hh => (handlesOk_run env before i h (handle_some hh)).1)
    (fun i h hh => (handlesOk_run _ before i h (handle_some hh)).1) op ha

/-! ### The property -/

/-- C122: a mount of a damaged file.  For every file that opens and every damaged copy of it that an object in the same
  state opens without a failed read: after every history of requests, every request to the mount of the damaged copy is
  answered as it is by the mount of the whole file after the same history, but for reads, which may be answered with
  `EIO`.  Missing: copies that are opened though a read failed (`C111_open_violated`), and what C66 assumes. -/
theorem C122_mount_damaged_partial (cmp : Bytes → Bytes → Option Bool)
    (st whole : FileState) (hst : Reachable cmp st) (hwhole : Reachable cmp whole)
    (hclosed : st.file.handle = none) (hsame : whole.file = st.file) (h : HandleId)
    (hdev : Damaged (st.world.dev h) (whole.world.dev h)) (flags : Nat)
    (hreads : ∀ r ∈ (openRead cmp (st.world.dev h) st.file).1.reads, Readable (st.world.dev h) r)
    (hok : (openHandle cmp h flags {} whole).1 = .ok ()) (t : Tree)
    (ht : (openHandle cmp h flags {} whole).2.file.tree = some t) :
    (openHandle cmp h flags {} st).1 = .ok () ∧ (openHandle cmp h flags {} st).2.file.tree = some t ∧
    ∃ f f', (openHandle cmp h flags {} whole).2.file.ctx
        ((openHandle cmp h flags {} whole).2.world.dev h) = some f ∧
      (openHandle cmp h flags {} st).2.file.ctx
        ((openHandle cmp h flags {} st).2.world.dev h) = some f' ∧
      ∀ env : FuseEnv, env.tree = t → env.ctx = f → SaneCodec env.k → 4 ≤ f.io.shortSectorSize →
        (∀ p it, itemAt t p = some it → TimeFits it.entry.modified) →
        ∀ (before : List FuseOp) (op : FuseOp), op.InRange →
          (fuseStep { env with ctx := f' } (fuseRun { env with ctx := f' } before) op).1 =
            (fuseStep env (fuseRun env before) op).1 ∨
          (∃ i size offset, op = .read i size offset) ∧
            (fuseStep { env with ctx := f' } (fuseRun { env with ctx := f' } before) op).1 = .ok (.error .eio) := by
  have hempty := (reachable_inv hst).closed hclosed
  rw [openRead_reads hempty] at hreads
  have hload : ∀ io, (openCore cmp (whole.world.dev h) io) = openCore cmp (st.world.dev h) io := by
    intro io
    refine openCore_damaged hdev cmp io fun r hr => hreads r ?_
    rw [(openCore_io cmp (st.world.dev h) st.file.io io).1]
    exact hr
  have hok' : (openHandle cmp h flags {} st).1 = .ok () := by
    obtain ⟨h1, h2, h3, h4, l, h5⟩ := (C34_open_iff cmp whole hwhole h flags {}).1.1 hok
    exact (C34_open_iff cmp st hst h flags {}).1.2 ⟨hclosed, h2, h3, Or.inr rfl, l, by rw [← hload]; exact h5⟩
  obtain ⟨l1, _, _, _, _, ho1, hf1, hw1⟩ := openHandle_loaded (reachable_inv hwhole).closed hok
  obtain ⟨l2, _, _, _, _, ho2, hf2, hw2⟩ := openHandle_loaded (reachable_inv hst).closed hok'
  obtain ⟨p1, p2⟩ := openCore_ok_iff.2 ⟨_, _, _, _, ho1⟩
  obtain ⟨q1, q2⟩ := openCore_ok_iff.2 ⟨_, _, _, _, ho2⟩
  rw [hsame, hload] at p1 p2
  rw [p1] at q1
  cases q1
  have hio := p2.symm.trans q2
  have hd1 : (openHandle cmp h flags {} whole).2.world.dev h = whole.world.dev h := by
    rw [hw1, (ensureOpen_isOpen _ _).2.2.1]
  have hd2 : (openHandle cmp h flags {} st).2.world.dev h = st.world.dev h := by
    rw [hw2, (ensureOpen_isOpen _ _).2.2.1]
  have ht' : (openHandle cmp h flags {} st).2.file.tree = some t := by
    rw [hf1] at ht
    rw [hf2]
    exact ht
  refine ⟨hok', ht', ?_⟩
  obtain ⟨f, hfc, hans⟩ := C66_requests_answered_partial cmp h flags {} whole hwhole hok t ht
  obtain ⟨f', hfc', hans'⟩ := C66_requests_answered_partial cmp h flags {} st hst hok' t ht'
  refine ⟨f, f', hfc, hfc', ?_⟩
  have hff : f' = { f with dev := st.world.dev h } ∧ f.dev = whole.world.dev h := by
    rw [hd1, hf1] at hfc
    rw [hd2, hf2] at hfc'
    have e1 : f = ⟨(openHandle cmp h flags {} whole).2.file.io, whole.world.dev h, l1.sat, l1.ssat⟩ := (Option.some.inj hfc).symm
    have e2 : f' = ⟨(openHandle cmp h flags {} st).2.file.io, st.world.dev h, l1.sat, l1.ssat⟩ := (Option.some.inj hfc').symm
    rw [e1, e2]
    exact ⟨by rw [hio], rfl⟩
  obtain ⟨hff, hfd⟩ := hff
  intro env e1 e2 hk hsh htime before op hop
  obtain ⟨a, ha⟩ := hans' { env with ctx := f' } e1 rfl hk (by rw [hff]; exact hsh) htime before op hop
  subst e2
  subst hff
  rcases answer_damaged (by rw [hfd]; exact hdev) before op ha with h1 | ⟨h1, rfl⟩
  · exact .inl (ha.trans h1.symm)
  · exact .inr ⟨h1, ha⟩

/-- The whole file of which half of the only stream is lost in `badState`. -/
def goodState : FileState :=
  ⟨badState.file, { badState.world with dev := fun _ => Dev.ofBytes (encodeFile ⟨.little, 9, 6, 0, {}⟩ twoSectors) }⟩

/-- The hypotheses are met: the damaged file is mounted and answers like the whole, but for reads that fail. -/
example : ∃ t, (openHandle cmpNone (.user 1) 1 {} badState).2.file.tree = some t ∧
    ∃ f f', (openHandle cmpNone (.user 1) 1 {} goodState).2.file.ctx
        ((openHandle cmpNone (.user 1) 1 {} goodState).2.world.dev (.user 1)) = some f ∧
      (openHandle cmpNone (.user 1) 1 {} badState).2.file.ctx
        ((openHandle cmpNone (.user 1) 1 {} badState).2.world.dev (.user 1)) = some f' ∧
      ∀ env : FuseEnv, env.tree = t → env.ctx = f → SaneCodec env.k → 4 ≤ f.io.shortSectorSize →
        (∀ p it, itemAt t p = some it → TimeFits it.entry.modified) →
        ∀ (before : List FuseOp) (op : FuseOp), op.InRange →
          (fuseStep { env with ctx := f' } (fuseRun { env with ctx := f' } before) op).1 =
            (fuseStep env (fuseRun env before) op).1 ∨
          (∃ i size offset, op = .read i size offset) ∧
            (fuseStep { env with ctx := f' } (fuseRun { env with ctx := f' } before) op).1 = .ok (.error .eio) := by
  have hd : badState.world.dev (.user 1) = badHalf := rfl
  have hf : badState.file = OleFile.new := rfl
  have hr : Reachable cmpNone goodState := ⟨goodState, [], ⟨rfl, rfl⟩, rfl⟩
  obtain ⟨hok, t, _, _, ht, _⟩ := C60_written_document_shown _ _ (twoSectors_storable .little) cmpNone
    (fun n _ => ⟨fun _ => by simp [cmpNone], fun _ => by simp [cmpNone]⟩) goodState hr rfl (.user 1) rfl 1 rfl
  obtain ⟨_, h1, h2⟩ := C122_mount_damaged_partial cmpNone badState goodState
    ⟨badState, [], ⟨rfl, rfl⟩, rfl⟩ hr rfl rfl (.user 1) (by rw [hd]; exact badHalf_damaged) 1
    (by rw [hd, hf]; exact badHalf_reads) hok t ht
  exact ⟨t, h1, h2⟩

end Olecf.Props
