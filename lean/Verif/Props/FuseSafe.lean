import Verif.Props.FuseDoc
import Verif.Props.File

/-
  C66: no request makes a mount stop.
-/

namespace Olecf.Props
open Olecf Olecf.Spec

/-- What is assumed of libuna: it decodes at least one and at most the given bytes, one byte for the
  ends of path components, and encodes a character in at most ten bytes. -/
structure SaneCodec (k : Codec) : Prop where
  step : ∀ s c n, s ≠ [] → k.step s = some (c, n) → 0 < n ∧ n ≤ s.length ∧ (EndsComponent c → n = 1)
  enc : ∀ c u, k.enc c = some u → u.length ≤ 10

/-- The items of a mount have fields in range. -/
structure SaneMount (env : FuseEnv) : Prop where
  codec : SaneCodec env.k
  ctx : WellFormedCtx env.ctx
  sector : 4 ≤ env.ctx.io.sectorSize
  short : 4 ≤ env.ctx.io.shortSectorSize
  fits : ∀ p it, itemAt env.tree p = some it → EntryFits it.entry
  time : ∀ p it, itemAt env.tree p = some it → TimeFits it.entry.modified

theorem timeFits_ok {ft : Nat} (h : TimeFits ft) : ∃ t, mountTime ft = .ok t := by
  by_cases h0 : ft = 0
  · exact ⟨0, by rw [h0]; rfl⟩
  · rcases h with h | ⟨hlo, hhi⟩
    · exact absurd h h0
    · refine ⟨_, C54_mounted_time_partial _ ?_ h0 hlo hhi⟩
      unfold filetimeNanoseconds at hhi
      omega

section
variable {env : FuseEnv}

theorem sane_stat (hs : SaneMount env) {e : MountEntry} {q : List Nat}
    (hq : itemAt env.tree q = some e.item) : ∃ s, entryStat env e = .ok s := by
  obtain ⟨t, ht⟩ := timeFits_ok (hs.time q _ hq)
  exact ⟨_, entryStat_ok ht (Nat.lt_trans (hs.fits q _ hq).size (by decide))⟩

theorem sane_lookup (hs : SaneMount env) (p : Bytes) :
    (mountEntryByPath env.k env.cmp (some env.tree) p).Defined :=
  C57_open_any_path env.k env.cmp env.tree hs.codec.step p

theorem sane_sub (hs : SaneMount env) (e : MountEntry) (i : Int) :
    (mountSubEntry env.k env.utf8Name env.tree e i).Defined := by
  unfold mountSubEntry
  have hg : (getSubItem env.tree e.item i).Defined := by
    unfold getSubItem
    split
    · trivial
    · split <;> trivial
  generalize getSubItem env.tree e.item i = r at hg
  match r with
  | .ok it =>
    simp only []
    have hm : (mountFilename env.k env.utf8Name it).Defined := by
      unfold mountFilename
      split
      · trivial
      · split
        · trivial
        · exact C57_mounted_name_safe env.k hs.codec.enc
            (fun s c n h1 h2 => (hs.codec.step s c n h1 h2).1) _
    generalize mountFilename env.k env.utf8Name it = m at hm
    match m with
    | .ok n => trivial
    | .err => trivial
    | .ub => exact hm.elim
    | .hang => exact hm.elim
  | .err => trivial
  | .ub => exact hg.elim
  | .hang => exact hg.elim

theorem mountSubEntry_item {e s : MountEntry} {i : Nat} {q : List Nat}
    (hq : itemAt env.tree q = some e.item)
    (h : mountSubEntry env.k env.utf8Name env.tree e i = .ok s) :
    itemAt env.tree (q ++ [i]) = some s.item := by
  unfold mountSubEntry at h
  split at h
  · rename_i it hit
    split at h
    · cases h
      exact (itemFrom_snoc _ q _ i _).2 ⟨e.item, hq, hit⟩
    all_goals cases h
  all_goals cases h

theorem sane_readdirLoop (hs : SaneMount env) {e : MountEntry} {q : List Nat}
    (hq : itemAt env.tree q = some e.item) : ∀ n index, (readdirLoop env e n index).Defined
  | 0, _ => trivial
  | n + 1, index => by
    unfold readdirLoop
    have h1 := sane_sub hs e index
    have h2 : ∀ s, mountSubEntry env.k env.utf8Name env.tree e index = .ok s →
        ∃ st, entryStat env s = .ok st := fun s h => sane_stat hs (mountSubEntry_item hq h)
    generalize mountSubEntry env.k env.utf8Name env.tree e index = r at h1 h2
    match r with
    | .ok s =>
      obtain ⟨st, hst⟩ := h2 s rfl
      simp only [fillDir]
      rw [hst]
      simp only []
      have h3 := sane_readdirLoop hs hq n (index + 1)
      generalize readdirLoop env e n (index + 1) = l at h3
      match l with
      | .ok l => trivial
      | .err => trivial
      | .ub => exact h3.elim
      | .hang => exact h3.elim
    | .err => trivial
    | .ub => exact h1.elim
    | .hang => exact h1.elim

theorem unitOf_ge (hs : SaneMount env) (d : DirEntry) : 4 ≤ unitOf env.ctx d := by
  unfold unitOf
  split
  · exact hs.short
  · exact hs.sector

theorem sane_read (hs : SaneMount env) {e : MountEntry} {q : List Nat}
    (hq : itemAt env.tree q = some e.item) {cur : Int} (hc : 0 ≤ cur) (size : Nat) {offset : Int}
    (hlo : -2 ^ 63 ≤ offset) (hhi : offset < 2 ^ 63) :
    (mountRead env.ctx e cur size offset).1.res.Defined := by
  unfold mountRead
  split
  · trivial
  · rename_i ht
    have ht' : ¬ e.item.entry.type ≠ typeStream := ht
    unfold streamReadAt streamSeek
    have h3 : ¬ (Whence.set = .other) := by decide
    have h4 : ¬ ¬ inOff64 offset := by
      unfold inOff64; simp; omega
    simp only [if_neg ht', if_neg (show ¬ cur < 0 by omega), if_neg h3, if_neg h4]
    by_cases h5 : offset < 0
    · simp only [if_pos h5]
      trivial
    · simp only [if_neg h5]
      exact C50_read_defined_partial hs.ctx (hs.fits q _ hq) (unitOf_ge hs _) offset size

/-- The open handles of a mount are on items of the file. -/
def HandlesOk (env : FuseEnv) (st : FuseState) : Prop :=
  ∀ (i : Nat) (h : FuseHandle), st.handles[i]? = some (some h) → 0 ≤ h.cur ∧ ∃ q, itemAt env.tree q = some h.entry.item

theorem handlesOk_step {st : FuseState} (h : HandlesOk env st) (op : FuseOp) :
    HandlesOk env (fuseStep env st op).2 := by
  have hopened : ∀ p r, (∀ hd, r = .ok (.ok hd) → fuseLookup env p = .ok (.ok hd)) →
      HandlesOk env (fuseOpened st r).2 := by
    intro p r hr
    rcases r with (x | x) | _ | _ | _
    · exact h
    · intro i hd hi
      have hi' : (st.handles ++ [some x])[i]? = some (some hd) := hi
      rcases Nat.lt_or_ge i st.handles.length with hlt | hge
      · rw [List.getElem?_append_left hlt] at hi'
        exact h i hd hi'
      · rw [List.getElem?_append_right hge] at hi'
        rcases hn : i - st.handles.length with _ | n
        · rw [hn] at hi'
          cases hi'
          obtain ⟨hc, he⟩ := fuseLookup_cur (hr _ rfl)
          obtain ⟨q, hq⟩ := mountEntryByPath_item he
          exact ⟨by rw [hc]; exact Int.le_refl 0, q, hq⟩
        · rw [hn] at hi'; cases hi'
    all_goals exact h
  have hset : ∀ j : Nat, ∀ live : Nat, HandlesOk env ⟨st.handles.set j none, live⟩ := by
    intro j live i hd hi
    have hi' : (st.handles.set j none)[i]? = some (some hd) := hi
    by_cases hj : j = i
    · subst hj
      rw [List.getElem?_set_self'] at hi'
      cases hst : st.handles[j]? with
      | none => rw [hst] at hi'; cases hi'
      | some a => rw [hst] at hi'; cases hi'
    · rw [List.getElem?_set_ne hj] at hi'
      exact h i hd hi'
  cases op with
  | «open» path flags => exact hopened path _ fun hd hr => (fuseOpen_ok hr).2
  | opendir path => exact hopened path _ fun hd hr => hr
  | readdir j => exact h
  | getattr p => exact h
  | release j => exact hset j _
  | releasedir j => exact hset j _
  | read j size offset =>
    intro i hd hi
    have hi' : (st.handles.set j (fuseRead env size offset (st.handle j)).2)[i]? = some (some hd) := hi
    by_cases hj : j = i
    · subst hj
      cases hst : st.handles[j]? with
      | none =>
        rw [List.getElem?_set_self', hst] at hi'; cases hi'
      | some a =>
        rw [List.getElem?_set_self', hst] at hi'
        have hh : st.handle j = a := by unfold FuseState.handle; rw [hst]; rfl
        rw [hh] at hi'
        cases a with
        | none => rw [fuseRead_none] at hi'; cases hi'
        | some x =>
          obtain ⟨hc, q, hq⟩ := h j x hst
          obtain ⟨_, c, hc', h2⟩ := fuseRead_some env x hc size offset
          rw [h2] at hi'
          cases hi'
          exact ⟨hc', q, hq⟩
    · rw [List.getElem?_set_ne hj] at hi'
      exact h i hd hi'

theorem handlesOk_run (env : FuseEnv) (ops : List FuseOp) : HandlesOk env (fuseRun env ops) := by
  have key : ∀ (ops : List FuseOp) (st : FuseState), HandlesOk env st →
      HandlesOk env (ops.foldl (fun st op => (fuseStep env st op).2) st) := by
    intro ops
    induction ops with
    | nil => intro st h; exact h
    | cons op ops ih => intro st h; exact ih _ (handlesOk_step h op)
  exact key ops _ fun i h hi => by simp at hi

theorem handle_some {st : FuseState} {i : Nat} {h : FuseHandle} (hh : st.handle i = some h) :
    st.handles[i]? = some (some h) := by
  unfold FuseState.handle at hh
  cases hst : st.handles[i]? with
  | none => rw [hst] at hh; cases hh
  | some a => rw [hst] at hh; exact congrArg some hh

/-- In a mount whose items have fields in range every request is answered. -/
theorem sane_step (hs : SaneMount env) {st : FuseState} (hst : HandlesOk env st) (op : FuseOp)
    (hop : op.InRange) : ∃ a, (fuseStep env st op).1 = .ok a := by
  have hopened : ∀ p r, (r = fuseLookup env p ∨ ∃ x, r = .ok (.error x)) →
      ∃ a, (fuseOpened st r).1 = .ok a := by
    intro p r hr
    rcases hr with rfl | ⟨x, rfl⟩
    · unfold fuseLookup
      have hd := sane_lookup hs p
      generalize mountEntryByPath env.k env.cmp (some env.tree) p = m at hd
      match m with
      | .ok (some e) => exact ⟨_, rfl⟩
      | .ok none => exact ⟨_, rfl⟩
      | .err => exact ⟨_, rfl⟩
      | .ub => exact hd.elim
      | .hang => exact hd.elim
    · exact ⟨_, rfl⟩
  cases op with
  | «open» path flags =>
    refine hopened path _ ?_
    unfold fuseOpen
    rw [if_neg (by simp)]
    split
    · exact Or.inr ⟨_, rfl⟩
    · exact Or.inl rfl
  | opendir path => exact hopened path _ (Or.inl rfl)
  | release j => exact ⟨_, rfl⟩
  | releasedir j => exact ⟨_, rfl⟩
  | getattr p =>
    show ∃ a, fuseAnswer .stat (fuseGetattr env p) = .ok a
    unfold fuseGetattr
    have hd := sane_lookup hs p
    have hi : ∀ e, mountEntryByPath env.k env.cmp (some env.tree) p = .ok (some e) →
        ∃ s, entryStat env e = .ok s := by
      intro e he
      obtain ⟨q, hq⟩ := mountEntryByPath_item he
      exact sane_stat hs hq
    generalize mountEntryByPath env.k env.cmp (some env.tree) p = m at hd hi
    match m with
    | .ok (some e) =>
      obtain ⟨s, h⟩ := hi e rfl
      simp only [h]
      exact ⟨_, rfl⟩
    | .ok none => exact ⟨_, rfl⟩
    | .err => exact ⟨_, rfl⟩
    | .ub => exact hd.elim
    | .hang => exact hd.elim
  | readdir j =>
    show ∃ a, fuseAnswer .entries (fuseReaddir env (st.handle j)) = .ok a
    cases hh : st.handle j with
    | none => exact ⟨_, rfl⟩
    | some h =>
      obtain ⟨_, q, hq⟩ := hst j h (handle_some hh)
      obtain ⟨s, h1⟩ := sane_stat hs hq
      unfold fuseReaddir
      have h0 : setStatInfo env.nsec 0 0 0 0 0 = .ok ⟨0, 0, 1, timeSpec env.nsec 0,
          timeSpec env.nsec 0, timeSpec env.nsec 0⟩ := by
        unfold setStatInfo
        rw [if_neg (by decide)]
        rfl
      simp only [fillDir, h1, h0]
      have hl := sane_readdirLoop hs hq (numberOfSubItems env.tree h.entry.item) 0
      generalize readdirLoop env h.entry (numberOfSubItems env.tree h.entry.item) 0 = l at hl
      match l with
      | .ok l => exact ⟨_, rfl⟩
      | .err => exact ⟨_, rfl⟩
      | .ub => exact hl.elim
      | .hang => exact hl.elim
  | read j size offset =>
    show ∃ a, fuseAnswer .data (fuseRead env size offset (st.handle j)).1 = .ok a
    unfold fuseRead
    split
    · exact ⟨_, rfl⟩
    · cases hh : st.handle j with
      | none => exact ⟨_, rfl⟩
      | some h =>
        obtain ⟨hc, q, hq⟩ := hst j h (handle_some hh)
        have hd := sane_read hs hq hc size hop.1 hop.2
        simp only []
        generalize (mountRead env.ctx h.entry h.cur size offset).1.res = r at hd
        match r with
        | .ok d => exact ⟨_, rfl⟩
        | .err => exact ⟨_, rfl⟩
        | .ub => exact hd.elim
        | .hang => exact hd.elim

end

/-- C66: whatever file was opened and mounted, and whatever requests came before, every request is
  answered, with a result or an error number, if the modification times of the items fit and short
  sectors have 4 bytes at least.

  Missing for the full property: other modification times (`C66_time_violated`), and short sectors of 1
  and 2 bytes (`C50_counter_overflow_violated`). -/
theorem C66_requests_answered_partial (cmp : Bytes → Bytes → Option Bool) (h : HandleId) (flags : Nat)
    (flt : Faults) (st : FileState) (hst : Reachable cmp st)
    (hok : (openHandle cmp h flags flt st).1 = .ok ()) (t : Tree)
    (ht : (openHandle cmp h flags flt st).2.file.tree = some t) :
    ∃ f, (openHandle cmp h flags flt st).2.file.ctx
        ((openHandle cmp h flags flt st).2.world.dev h) = some f ∧
      ∀ env : FuseEnv, env.tree = t → env.ctx = f → SaneCodec env.k → 4 ≤ f.io.shortSectorSize →
        (∀ p it, itemAt t p = some it → TimeFits it.entry.modified) →
        ∀ (before : List FuseOp) (op : FuseOp), op.InRange →
          ∃ a, (fuseStep env (fuseRun env before) op).1 = .ok a := by
  obtain ⟨f, list, m, hf, _, hwf, ⟨a, _, ha⟩, _, h128, _, _, _, hent, hmem⟩ :=
    C52_opened_well_formed cmp h flags flt st (reachable_inv hst).closed hok t ht
  refine ⟨f, hf, ?_⟩
  intro env e1 e2 hk hsh htime before op hop
  subst e1 e2
  refine sane_step ⟨hk, hwf, ?_, hsh, fun p it hp => (hent _ (hmem p it hp)).1, htime⟩
    (handlesOk_run env before) op hop
  have hpos : 0 < env.ctx.io.sectorSize := by rw [ha]; exact Nat.pow_pos (by omega)
  omega

/-- C66 fails for files whose root storage has a modification time that is set, before 1678 or after
  2261: the attributes of the root directory are computed with signed integers that overflow. -/
theorem C66_time_violated (env : FuseEnv) (hk : IsUtf8 env.k) (before : List FuseOp)
    (h64 : env.tree.root.modified < 2 ^ 64) (hbad : ¬ TimeFits env.tree.root.modified) :
    (fuseStep env (fuseRun env before) (.getattr [0x2f])).1 = .ub := by
  show fuseAnswer .stat (fuseGetattr env [0x2f]) = .ub
  unfold fuseGetattr
  rw [C44_root hk env.cmp env.tree]
  simp only [entryStat]
  rw [C54_overflow _ h64 (fun h0 => hbad (Or.inl h0)) (fun h => hbad (Or.inr h))]
  rfl

/-- Non-vacuity: the UTF-8 encoding of Lean's library, and a mount with a storage and two streams. -/
theorem libUtf8_sane : SaneCodec libUtf8 := by
  refine ⟨?_, ?_⟩
  · intro s c n _ h
    simp only [libUtf8] at h
    split at h
    · rename_i ch hch
      cases h
      refine ⟨Char.utf8Size_pos _, ?_, ?_⟩
      · have := ByteArray.le_size_of_utf8DecodeChar?_eq_some hch
        simpa using this
      · intro he
        have : ch.val ≤ 0x7f := by
          rcases he with he | he
          · exact UInt32.le_iff_toNat_le.2 (by rw [show ch.val.toNat = 0x5c from he]; decide)
          · exact UInt32.le_iff_toNat_le.2 (by rw [show ch.val.toNat = 0 from he]; decide)
        exact if_pos this
    · cases h
  · intro c u h
    change (if c.isValidChar then _ else _) = _ at h
    split at h
    · cases h
      rw [String.length_utf8EncodeChar]
      have := Char.utf8Size_le_four (Char.ofNat c)
      omega
    · cases h

def sampleMount : FuseEnv where
  k := libUtf8
  cmp := asciiCmp
  utf8Name := asciiName
  tree := mountTree
  ctx := sampleCtx
  mounted := 0
  nsec := false

theorem sampleMount_sane : SaneMount sampleMount := by
  obtain ⟨m, _, _, _, ht, _⟩ := C44_backslash_violated
  have hmem := (C16_no_item_twice _ _ (by decide) _ m ht).1
  have h : ∀ d ∈ mountDir, EntryFits d ∧ d.modified = 0 := by
    have : ∀ d ∈ mountDir, (d.start < 2 ^ 32 ∧ d.size < 2 ^ 32) ∧ d.modified = 0 := by decide +kernel
    exact fun d hd => ⟨⟨(this d hd).1.1, (this d hd).1.2⟩, (this d hd).2⟩
  refine ⟨libUtf8_sane, sampleCtx_wf, by decide, by decide, ?_, ?_⟩
  · intro p it hp
    exact (h _ (hmem p it hp)).1
  · intro p it hp
    exact Or.inl (h _ (hmem p it hp)).2

example (before : List FuseOp) (path : Bytes) (i size : Nat) :
    (∃ a, (fuseStep sampleMount (fuseRun sampleMount before) (.getattr path)).1 = .ok a) ∧
    ∃ a, (fuseStep sampleMount (fuseRun sampleMount before) (.read i size 0)).1 = .ok a :=
  ⟨sane_step sampleMount_sane (handlesOk_run _ _) _ trivial,
    sane_step sampleMount_sane (handlesOk_run _ _) _ (by constructor <;> decide)⟩

/-! ### C63 on the sample -/

/-- Opened after other files and directories, and read after further operations: the handle 1 of `/ab/c`
  (C63_read_history_independent), and the handle 0 of `/ab` (C63_listing_history_independent). -/
example : (fuseStep sampleMount (fuseRun sampleMount [.opendir [0x2f, 97, 98], .getattr [0x2f]])
      (.open [0x2f, 97, 98, 0x2f, 99] 0)).1 = .ok (.ok (.opened 1)) ∧
    (fuseStep sampleMount (fuseRun sampleMount []) (.opendir [0x2f, 97, 98])).1 =
      .ok (.ok (.opened 0)) ∧
    ∀ op ∈ [FuseOp.read 1 3 0, .release 0, .opendir [0x2f]], ¬ Releases 1 op := by
  refine ⟨by decide +kernel, by decide +kernel, ?_⟩
  intro op hop
  simp only [List.mem_cons, List.not_mem_nil, or_false] at hop
  rcases hop with rfl | rfl | rfl <;> intro h <;> rcases h with h | h <;> cases h

/-- Times that do not fit: the first interval of 1601, and the last of the FILETIMEs. -/
example : ¬ TimeFits 1 ∧ ¬ TimeFits (2 ^ 64 - 1) := by
  unfold TimeFits filetimeNanoseconds
  omega

/-- Times that fit: not set, 1970, 2020. -/
example : TimeFits 0 ∧ TimeFits 116444736000000000 ∧ TimeFits 132223104000000000 := by
  unfold TimeFits filetimeNanoseconds
  omega

end Olecf.Props
