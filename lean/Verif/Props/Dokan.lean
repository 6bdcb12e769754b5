import Verif.Props.DokanDoc
import Verif.Props.FuseSafe

/-
  C105: histories of operations on a drive.
-/

namespace Olecf.Props
open Olecf Olecf.Spec

/-! ### Reads do not depend on the history -/

theorem dokanRead_none (env : DokanEnv) (size : Nat) (offset : Int) :
    (dokanRead env size offset none).2 = none := by
  unfold dokanRead
  split <;> rfl

/-- The context `i` is open on the entry. -/
def DriveOpenOn (st : DokanState) (i : Nat) (e : WideEntry) : Prop :=
  ∃ c, 0 ≤ c ∧ st.contexts[i]? = some (some ⟨e, c⟩)

theorem driveOpenOn_step (env : DokanEnv) {st : DokanState} {i : Nat} {e : WideEntry}
    (h : DriveOpenOn st i e) (op : DokanOp) (hop : op ≠ .close i) : DriveOpenOn (dokanStep env st op).2 i e := by
  obtain ⟨c, hc, hi⟩ := h
  have hlt : i < st.contexts.length := (List.getElem?_eq_some_iff.1 hi).1
  have hopened : ∀ r, DriveOpenOn (dokanOpened st r).2 i e := by
    intro r
    rcases r with (x | x) | _ | _ | _
    · exact ⟨c, hc, hi⟩
    · exact ⟨c, hc, by
        show (st.contexts ++ [some x])[i]? = _
        rw [List.getElem?_append_left hlt]; exact hi⟩
    · exact ⟨c, hc, hi⟩
    · exact ⟨c, hc, hi⟩
    · exact ⟨c, hc, hi⟩
  cases op with
  | create path access disposition => exact hopened _
  | zwCreate path access disposition => exact hopened _
  | openDirectory path => exact hopened _
  | find p => exact ⟨c, hc, hi⟩
  | information p info => exact ⟨c, hc, hi⟩
  | close j =>
    have hj : j ≠ i := fun hj => hop (by rw [hj])
    exact ⟨c, hc, by
      show (st.contexts.set j none)[i]? = _
      rw [List.getElem?_set_ne hj]; exact hi⟩
  | read j size offset =>
    by_cases hj : j = i
    · subst hj
      have hh : st.context j = some ⟨e, c⟩ := by unfold DokanState.context; rw [hi]; rfl
      obtain ⟨_, c', hc', h2⟩ := dokanRead_some env ⟨e, c⟩ hc size offset
      refine ⟨c', hc', ?_⟩
      show (st.contexts.set j (dokanRead env size offset (st.context j)).2)[j]? = _
      rw [hh, h2, List.getElem?_set_self hlt]
    · refine ⟨c, hc, ?_⟩
      show (st.contexts.set j _)[i]? = _
      rw [List.getElem?_set_ne hj]; exact hi

theorem driveOpenOn_after (env : DokanEnv) {i : Nat} {e : WideEntry} : ∀ (ops : List DokanOp)
    {st : DokanState}, DriveOpenOn st i e → (∀ op ∈ ops, op ≠ .close i) →
    DriveOpenOn (dokanAfter env st ops) i e
  | [], _, h, _ => h
  | op :: ops, st, h, hops =>
    driveOpenOn_after env ops (driveOpenOn_step env h op (hops op (by simp)))
      fun o ho => hops o (by simp [ho])

theorem dokanOpened_opened {st : DokanState} {r : DokanRes DokanHandle} {i : Nat}
    (h : (dokanOpened st r).1 = .ok (.ok (.opened i))) :
    ∃ hd, r = .ok (.ok hd) ∧ i = st.contexts.length ∧
      (dokanOpened st r).2 = ⟨st.contexts ++ [some hd], st.live + 1⟩ := by
  rcases r with (x | x) | _ | _ | _
  · cases h
  · cases h; exact ⟨x, rfl, rfl, rfl⟩
  all_goals cases h

/-- What an operation that opens a file does. -/
theorem opens_step (env : DokanEnv) {op : DokanOp} (ho : op.Opens) : ∃ p r, AsksFile env p r ∧
    ∀ st, dokanStep env st op = dokanOpened st r := by
  cases op with
  | create path access disposition => exact ⟨path, _, .old, fun _ => rfl⟩
  | zwCreate path access disposition => exact ⟨path, _, .new, fun _ => rfl⟩
  | openDirectory path => exact ⟨path, _, .directory, fun _ => rfl⟩
  | _ => cases ho

/-- C105: a read from a file that was opened at any point of any history gives, after any further
  operations, on this and on other files, up to its close, what the same read gives right after the file was
  opened on a new drive. -/
theorem C105_read_history_independent (env : DokanEnv) (before later : List DokanOp) (op : DokanOp)
    (ho : op.Opens) (i : Nat)
    (hopen : (dokanStep env (dokanRun env before) op).1 = .ok (.ok (.opened i)))
    (hlater : ∀ op ∈ later, op ≠ .close i) (size : Nat) (offset : Int) :
    (dokanStep env (dokanAfter env (dokanStep env (dokanRun env before) op).2 later)
      (.read i size offset)).1 =
    (dokanStep env (dokanRun env [op]) (.read 0 size offset)).1 := by
  obtain ⟨p, r, hr, hstep⟩ := opens_step env ho
  rw [hstep] at hopen ⊢
  obtain ⟨h, hr', hi, hst⟩ := dokanOpened_opened hopen
  obtain ⟨hcur, _⟩ := dokanLookup_cur (asksFile_ok hr hr')
  have hon : DriveOpenOn (dokanOpened (dokanRun env before) r).2 i h.entry := by
    refine ⟨0, Int.le_refl 0, ?_⟩
    rw [hst, hi, ← hcur]
    exact List.getElem?_concat_length
  obtain ⟨c, hc, hh⟩ := driveOpenOn_after env later hon hlater
  have h1 : ∀ st : DokanState, ∀ j c, st.contexts[j]? = some (some ⟨h.entry, c⟩) → 0 ≤ c →
      (dokanStep env st (.read j size offset)).1 =
        dokanAnswer .data (dokanRead env size offset (some ⟨h.entry, 0⟩)).1 := by
    intro st j c hj hc
    show dokanAnswer .data (dokanRead env size offset (st.context j)).1 = _
    have : st.context j = some ⟨h.entry, c⟩ := by unfold DokanState.context; rw [hj]; rfl
    rw [this, (dokanRead_some env ⟨h.entry, c⟩ hc size offset).1]
  rw [h1 _ i c hh hc]
  refine (h1 _ 0 0 ?_ (Int.le_refl 0)).symm
  show (dokanStep env ⟨[], 0⟩ op).2.contexts[0]? = _
  rw [hstep, hr', hcur]
  rfl

/-- C105: attributes, listings and what can be opened never depend on the history. -/
theorem C105_paths_history_independent (env : DokanEnv) (before : List DokanOp) (p : Wide) (info : DokanInfo)
    (op : DokanOp) (ho : op.Opens) :
    (dokanStep env (dokanRun env before) (.find p)).1 = (dokanStep env (dokanRun env []) (.find p)).1 ∧
    (dokanStep env (dokanRun env before) (.information p info)).1 =
      (dokanStep env (dokanRun env []) (.information p info)).1 ∧
    ((∃ i, (dokanStep env (dokanRun env before) op).1 = .ok (.ok (.opened i))) ↔
      ∃ i, (dokanStep env (dokanRun env []) op).1 = .ok (.ok (.opened i))) := by
  obtain ⟨p, r, -, hstep⟩ := opens_step env ho
  refine ⟨rfl, rfl, ?_⟩
  rw [hstep, hstep]
  rcases r with (x | x) | _ | _ | _
  · exact ⟨fun ⟨_, h⟩ => (by cases h), fun ⟨_, h⟩ => (by cases h)⟩
  · exact ⟨fun _ => ⟨_, rfl⟩, fun _ => ⟨_, rfl⟩⟩
  all_goals exact ⟨fun ⟨_, h⟩ => (by cases h), fun ⟨_, h⟩ => (by cases h)⟩

/-! ### What is opened is freed -/

theorem drive_live_step (env : DokanEnv) (st : DokanState) (op : DokanOp)
    (h : st.live = Spec.DokanState.openContexts st) :
    (dokanStep env st op).2.live = Spec.DokanState.openContexts (dokanStep env st op).2 := by
  have hopened : ∀ r, (dokanOpened st r).2.live = Spec.DokanState.openContexts (dokanOpened st r).2 := by
    intro r
    rcases r with (x | x) | _ | _ | _
    · exact h
    · show st.live + 1 = ((st.contexts ++ [some x]).filter (·.isSome)).length
      rw [List.filter_append, List.length_append, h]
      rfl
    all_goals exact h
  cases op with
  | create path access disposition => exact hopened _
  | zwCreate path access disposition => exact hopened _
  | openDirectory path => exact hopened _
  | find p => exact h
  | information p info => exact h
  | close j =>
    show (if (st.context j).isSome then st.live - 1 else st.live) =
      ((st.contexts.set j none).filter (·.isSome)).length
    rw [(filter_set_none st.contexts j).1, h]
    unfold DokanState.context Spec.DokanState.openContexts
    split <;> rfl
  | read j size offset =>
    show st.live = ((st.contexts.set j (dokanRead env size offset (st.context j)).2).filter
      (·.isSome)).length
    rw [filter_set_some, h]
    · rfl
    · show _ = (st.context j).isSome
      unfold dokanRead
      split
      · rfl
      · cases st.context j with
        | none => rfl
        | some x =>
          simp only []
          split
          · split <;> rfl
          all_goals rfl

/-- C105: in every history, the file entries in memory are those of the open files and directories; when all are
  closed there are none. -/
theorem C105_open_contexts (env : DokanEnv) (ops : List DokanOp) :
    (dokanRun env ops).live = Spec.DokanState.openContexts (dokanRun env ops) := by
  have key : ∀ (ops : List DokanOp) (st : DokanState), st.live = Spec.DokanState.openContexts st →
      (ops.foldl (fun st op => (dokanStep env st op).2) st).live =
        Spec.DokanState.openContexts (ops.foldl (fun st op => (dokanStep env st op).2) st) := by
    intro ops
    induction ops with
    | nil => intro st h; exact h
    | cons op ops ih => intro st h; exact ih _ (drive_live_step env st op h)
  exact key ops ⟨[], 0⟩ rfl

/-- Opening and closing a path `n` times. -/
def driveVisits (p : Wide) : Nat → List DokanOp
  | 0 => []
  | n + 1 => driveVisits p n ++ [.openDirectory p, .close n]

/-- Opening and closing the root directory any number of times leaves nothing in memory (which it does with
  FUSE, C64_directory_leak_violated). -/
theorem C105_no_directory_leak (env : DokanEnv) (hk : IsUtf16 env.k) (n : Nat) :
    (dokanRun env (driveVisits [0x5c] n)).live = 0 := by
  have hroot : openDirectory env [0x5c] none = .ok (.ok ⟨⟨[], 1, ⟨none, env.tree.root⟩⟩, 0⟩) :=
    dokanLookup_of (C103_root hk env.cmp env.tree)
  have key : ∀ n, dokanRun env (driveVisits [0x5c] n) = ⟨List.replicate n none, 0⟩ := by
    intro n
    induction n with
    | zero => rfl
    | succ n ih =>
      unfold dokanRun at ih ⊢
      rw [driveVisits, List.foldl_append, ih]
      simp only [List.foldl_cons, List.foldl_nil, dokanStep, hroot, dokanOpened]
      have hset : (List.replicate n (none : Option DokanHandle) ++
          [some (⟨⟨[], 1, ⟨none, env.tree.root⟩⟩, 0⟩ : DokanHandle)]).set n none =
            List.replicate (n + 1) none := by
        rw [List.set_append_right _ _ (by simp)]
        simp [List.replicate_succ']
      have hctx : (DokanState.context ⟨List.replicate n (none : Option DokanHandle) ++
          [some (⟨⟨[], 1, ⟨none, env.tree.root⟩⟩, 0⟩ : DokanHandle)], 0 + 1⟩ n).isSome = true := by
        unfold DokanState.context
        simp
      rw [hset, hctx]
      rfl
  rw [key]

/-! ### Every operation is answered -/

/-- What is assumed of libuna: it decodes at least one and at most the given code units, one for the ends of path
  components, and encodes a character in at most ten code units. -/
structure SaneWide (k : WideCodec) : Prop where
  step : ∀ s c n, s ≠ [] → k.step s = some (c, n) → 0 < n ∧ n ≤ s.length ∧ (EndsComponent c → n = 1)
  enc : ∀ c u, k.enc c = some u → u.length ≤ 10

/-- The items of a drive have fields in range, and names fit where they are copied. -/
structure SaneDrive (env : DokanEnv) : Prop where
  codec : SaneWide env.k
  ctx : WellFormedCtx env.ctx
  sector : 4 ≤ env.ctx.io.sectorSize
  short : 4 ≤ env.ctx.io.shortSectorSize
  fits : ∀ p it, itemAt env.tree p = some it → EntryFits it.entry
  names : env.longPaths = true → ∀ p it n, itemAt env.tree p = some it → env.name16 it.entry = some n →
    n.length ≤ 25

section
variable {env : DokanEnv}

theorem sane_lookupW (hs : SaneDrive env) (p : Wide) :
    (mountEntryByPathW env.k env.cmp (some env.tree) p).Defined :=
  C103_open_any_path env.k env.cmp env.tree hs.codec.step p

theorem sane_subW (hs : SaneDrive env) (e : WideEntry) (i : Int) :
    (mountSubEntryW env.k env.name16 env.tree e i).Defined := by
  unfold mountSubEntryW
  have hg : (getSubItem env.tree e.item i).Defined := by
    unfold getSubItem
    split
    · trivial
    · split <;> trivial
  generalize getSubItem env.tree e.item i = r at hg
  match r with
  | .ok it =>
    simp only []
    have hm : (mountFilenameW env.k env.name16 it).Defined := by
      unfold mountFilenameW
      split
      · trivial
      · rename_i name _
        have := C103_file_name_safe env.k hs.codec.enc
          (fun s c n h1 h2 => (hs.codec.step s c n h1 h2).1) name
        generalize fromItemPathW env.k name = r at this
        match r with
        | .ok m => trivial
        | .err => trivial
        | .ub => exact this.elim
        | .hang => exact this.elim
    generalize mountFilenameW env.k env.name16 it = m at hm
    match m with
    | .ok (n, s) => trivial
    | .err => trivial
    | .ub => exact hm.elim
    | .hang => exact hm.elim
  | .err => trivial
  | .ub => exact hg.elim
  | .hang => exact hg.elim

theorem mountSubEntryW_item {e s : WideEntry} {i : Nat} {q : List Nat}
    (hq : itemAt env.tree q = some e.item)
    (h : mountSubEntryW env.k env.name16 env.tree e i = .ok s) :
    itemAt env.tree (q ++ [i]) = some s.item ∧
      ∃ n, env.name16 s.item.entry = some n ∧ s.nameSize = n.length * 10 + 1 := by
  unfold mountSubEntryW at h
  split at h
  · rename_i it hit
    split at h
    · rename_i name size hname
      cases h
      refine ⟨(itemFrom_snoc _ q _ i _).2 ⟨e.item, hq, hit⟩, ?_⟩
      unfold mountFilenameW at hname
      split at hname
      · cases hname
      · rename_i n hn
        split at hname
        · cases hname
          exact ⟨n, hn, rfl⟩
        all_goals cases hname
    all_goals cases h
  all_goals cases h

theorem dokanFill_defined (name : Wide) (size : Nat) (e : Option WideEntry)
    (h : env.longPaths = true → size ≤ 260) : (dokanFill env name size e).Defined := by
  unfold dokanFill
  split
  · trivial
  · rename_i h1
    split
    · rename_i h2
      exfalso
      unfold dokanMaxPath at h1
      cases hl : env.longPaths with
      | true => have := h hl; omega
      | false => rw [hl] at h1; simp at h1; omega
    · trivial

theorem sane_findLoop (hs : SaneDrive env) {e : WideEntry} {q : List Nat}
    (hq : itemAt env.tree q = some e.item) : ∀ n index, ∃ a, (findLoop env e n index).2 = .ok a
  | 0, _ => ⟨_, rfl⟩
  | n + 1, index => by
    unfold findLoop
    have h1 := sane_subW hs e index
    have h2 : ∀ s, mountSubEntryW env.k env.name16 env.tree e index = .ok s →
        (dokanFill env s.name s.nameSize (some s)).Defined := by
      intro s h
      obtain ⟨hi, m, hm, hsz⟩ := mountSubEntryW_item hq h
      refine dokanFill_defined _ _ _ fun hl => ?_
      have := hs.names hl _ _ _ hi hm
      omega
    generalize mountSubEntryW env.k env.name16 env.tree e index = r at h1 h2
    match r with
    | .ok s =>
      have h3 := h2 s rfl
      simp only []
      generalize dokanFill env s.name s.nameSize (some s) = d at h3
      match d with
      | .ok d => exact sane_findLoop hs hq n (index + 1)
      | .err => exact ⟨_, rfl⟩
      | .ub => exact h3.elim
      | .hang => exact h3.elim
    | .err => exact ⟨_, rfl⟩
    | .ub => exact h1.elim
    | .hang => exact h1.elim

theorem sane_find (hs : SaneDrive env) (p : Wide) : ∃ a, (findFiles env p).2 = .ok a := by
  unfold findFiles
  have hd := sane_lookupW hs p
  have hi : ∀ e, mountEntryByPathW env.k env.cmp (some env.tree) p = .ok (some e) →
      ∃ q, itemAt env.tree q = some e.item := fun e he => mountEntryByPathW_item he
  generalize mountEntryByPathW env.k env.cmp (some env.tree) p = m at hd hi
  match m with
  | .ok (some e) =>
    obtain ⟨q, hq⟩ := hi e rfl
    simp only []
    unfold findEntries
    have h1 := dokanFill_defined (env := env) [0x2e] 2 (some e) (fun _ => by decide)
    have h2 := dokanFill_defined (env := env) [0x2e, 0x2e] 3 none (fun _ => by decide)
    generalize dokanFill env [0x2e] 2 (some e) = x at h1
    generalize dokanFill env [0x2e, 0x2e] 3 none = y at h2
    match x with
    | .ok x =>
      match y with
      | .ok y => exact sane_findLoop hs hq _ _
      | .err => exact ⟨_, rfl⟩
      | .ub => exact h2.elim
      | .hang => exact h2.elim
    | .err => exact ⟨_, rfl⟩
    | .ub => exact h1.elim
    | .hang => exact h1.elim
  | .ok none => exact ⟨_, rfl⟩
  | .err => exact ⟨_, rfl⟩
  | .ub => exact hd.elim
  | .hang => exact hd.elim

theorem sane_readW (hs : SaneDrive env) {e : WideEntry} {q : List Nat}
    (hq : itemAt env.tree q = some e.item) {cur : Int} (hc : 0 ≤ cur) (size : Nat) {offset : Int}
    (hlo : -2 ^ 63 ≤ offset) (hhi : offset < 2 ^ 63) :
    (mountReadW env.ctx e cur size offset).1.res.Defined := by
  unfold mountReadW
  split
  · trivial
  · rename_i ht
    have ht' : ¬ e.item.entry.type ≠ typeStream := ht
    unfold streamReadAt streamSeek
    have h3 : ¬ (Whence.set = .other) := by decide
    have h4 : ¬ ¬ inOff64 offset := by
      unfold inOff64; simp; omega
    simp only [if_neg ht', if_neg (show ¬ cur < 0 by omega), if_neg h3, if_neg h4]
    by_cases h5 : offset < 0
    · simp only [if_pos h5]
      trivial
    · simp only [if_neg h5]
      refine C50_read_defined_partial hs.ctx (hs.fits q _ hq) ?_ offset size
      unfold unitOf
      split
      · exact hs.short
      · exact hs.sector

/-- The open contexts of a drive are on items of the file. -/
def ContextsOk (env : DokanEnv) (st : DokanState) : Prop :=
  ∀ (i : Nat) (h : DokanHandle), st.contexts[i]? = some (some h) →
    0 ≤ h.cur ∧ ∃ q, itemAt env.tree q = some h.entry.item

theorem contextsOk_step {st : DokanState} (h : ContextsOk env st) (op : DokanOp) :
    ContextsOk env (dokanStep env st op).2 := by
  have hopened : ∀ p r, AsksFile env p r → ContextsOk env (dokanOpened st r).2 := by
    intro p r hr
    rcases r with (x | x) | _ | _ | _
    · exact h
    · intro i hd hi
      have hi' : (st.contexts ++ [some x])[i]? = some (some hd) := hi
      rcases Nat.lt_or_ge i st.contexts.length with hlt | hge
      · rw [List.getElem?_append_left hlt] at hi'
        exact h i hd hi'
      · rw [List.getElem?_append_right hge] at hi'
        rcases hn : i - st.contexts.length with _ | n
        · rw [hn] at hi'
          cases hi'
          obtain ⟨hc, he⟩ := dokanLookup_cur (asksFile_ok hr rfl)
          obtain ⟨q, hq⟩ := mountEntryByPathW_item he
          exact ⟨by rw [hc]; exact Int.le_refl 0, q, hq⟩
        · rw [hn] at hi'; cases hi'
    all_goals exact h
  cases op with
  | create path access disposition => exact hopened path _ .old
  | zwCreate path access disposition => exact hopened path _ .new
  | openDirectory path => exact hopened path _ .directory
  | find p => exact h
  | information p info => exact h
  | close j =>
    intro i hd hi
    have hi' : (st.contexts.set j none)[i]? = some (some hd) := hi
    by_cases hj : j = i
    · subst hj
      rw [List.getElem?_set_self'] at hi'
      cases hst : st.contexts[j]? with
      | none => rw [hst] at hi'; cases hi'
      | some a => rw [hst] at hi'; cases hi'
    · rw [List.getElem?_set_ne hj] at hi'
      exact h i hd hi'
  | read j size offset =>
    intro i hd hi
    have hi' : (st.contexts.set j (dokanRead env size offset (st.context j)).2)[i]? = some (some hd) := hi
    by_cases hj : j = i
    · subst hj
      cases hst : st.contexts[j]? with
      | none =>
        rw [List.getElem?_set_self', hst] at hi'; cases hi'
      | some a =>
        rw [List.getElem?_set_self', hst] at hi'
        have hh : st.context j = a := by unfold DokanState.context; rw [hst]; rfl
        rw [hh] at hi'
        cases a with
        | none => rw [dokanRead_none] at hi'; cases hi'
        | some x =>
          obtain ⟨hc, q, hq⟩ := h j x hst
          obtain ⟨_, c, hc', h2⟩ := dokanRead_some env x hc size offset
          rw [h2] at hi'
          cases hi'
          exact ⟨hc', q, hq⟩
    · rw [List.getElem?_set_ne hj] at hi'
      exact h i hd hi'

theorem contextsOk_run (env : DokanEnv) (ops : List DokanOp) : ContextsOk env (dokanRun env ops) := by
  have key : ∀ (ops : List DokanOp) (st : DokanState), ContextsOk env st →
      ContextsOk env (ops.foldl (fun st op => (dokanStep env st op).2) st) := by
    intro ops
    induction ops with
    | nil => intro st h; exact h
    | cons op ops ih => intro st h; exact ih _ (contextsOk_step h op)
  exact key ops _ fun i h hi => by simp at hi

theorem context_some {st : DokanState} {i : Nat} {h : DokanHandle} (hh : st.context i = some h) :
    st.contexts[i]? = some (some h) := by
  unfold DokanState.context at hh
  cases hst : st.contexts[i]? with
  | none => rw [hst] at hh; cases hh
  | some a => rw [hst] at hh; exact congrArg some hh

/-- On a drive whose items have fields in range every operation is answered. -/
theorem sane_drive_step (hs : SaneDrive env) {st : DokanState} (hst : ContextsOk env st) (op : DokanOp)
    (hop : op.InRange) : ∃ a, (dokanStep env st op).1 = .ok a := by
  have hopened : ∀ p r, (r = dokanLookup env p none ∨ ∃ x, r = .ok (.error x)) →
      ∃ a, (dokanOpened st r).1 = .ok a := by
    intro p r hr
    rcases hr with rfl | ⟨x, rfl⟩
    · unfold dokanLookup
      rw [if_neg (by simp)]
      have hd := sane_lookupW hs p
      generalize mountEntryByPathW env.k env.cmp (some env.tree) p = m at hd
      match m with
      | .ok (some e) => exact ⟨_, rfl⟩
      | .ok none => exact ⟨_, rfl⟩
      | .err => exact ⟨_, rfl⟩
      | .ub => exact hd.elim
      | .hang => exact hd.elim
    · exact ⟨_, rfl⟩
  cases op with
  | create path access disposition =>
    refine hopened path _ ?_
    unfold createFile
    split
    · exact Or.inr ⟨_, rfl⟩
    · split
      · exact Or.inr ⟨_, rfl⟩
      · split
        · exact Or.inr ⟨_, rfl⟩
        · split
          · exact Or.inr ⟨_, rfl⟩
          · split
            · exact Or.inr ⟨_, rfl⟩
            · split
              · exact Or.inr ⟨_, rfl⟩
              · exact Or.inl rfl
  | zwCreate path access disposition =>
    refine hopened path _ ?_
    unfold zwCreateFile
    split
    · exact Or.inr ⟨_, rfl⟩
    · split
      · exact Or.inr ⟨_, rfl⟩
      · split
        · exact Or.inr ⟨_, rfl⟩
        · exact Or.inl rfl
  | openDirectory path => exact hopened path _ (Or.inl rfl)
  | close j => exact ⟨_, rfl⟩
  | information p info =>
    show ∃ a, dokanAnswer .info (getFileInformation env p info) = .ok a
    unfold getFileInformation
    have hd := sane_lookupW hs p
    generalize mountEntryByPathW env.k env.cmp (some env.tree) p = m at hd
    match m with
    | .ok (some e) => exact ⟨_, rfl⟩
    | .ok none => exact ⟨_, rfl⟩
    | .err => exact ⟨_, rfl⟩
    | .ub => exact hd.elim
    | .hang => exact hd.elim
  | find p =>
    obtain ⟨a, ha⟩ := sane_find hs p
    show ∃ a, dokanAnswer (fun _ => .entries (findFiles env p).1) (findFiles env p).2 = .ok a
    rw [ha]
    cases a <;> exact ⟨_, rfl⟩
  | read j size offset =>
    show ∃ a, dokanAnswer .data (dokanRead env size offset (st.context j)).1 = .ok a
    unfold dokanRead
    split
    · exact ⟨_, rfl⟩
    · cases hh : st.context j with
      | none => exact ⟨_, rfl⟩
      | some h =>
        obtain ⟨hc, q, hq⟩ := hst j h (context_some hh)
        have hd := sane_readW hs hq hc size hop.1 hop.2
        simp only []
        generalize (mountReadW env.ctx h.entry h.cur size offset).1.res = r at hd
        match r with
        | .ok d => simp only []; split <;> exact ⟨_, rfl⟩
        | .err => exact ⟨_, rfl⟩
        | .ub => exact hd.elim
        | .hang => exact hd.elim

end

/-- C105: whatever file was opened and mounted as a drive, and whatever operations came before, every operation is
  answered, with a result or an error, if short sectors have 4 bytes at least, and if the program is not built for
  long paths or the names of the items have at most 25 code units.

  Missing for the full property: programs built for long paths with longer names (`C104_long_name_violated`), and
  short sectors of 1 and 2 bytes (`C50_counter_overflow_violated`). -/
theorem C105_operations_answered_partial (cmp : Bytes → Bytes → Option Bool) (h : HandleId) (flags : Nat)
    (flt : Faults) (st : FileState) (hst : Reachable cmp st)
    (hok : (openHandle cmp h flags flt st).1 = .ok ()) (t : Tree)
    (ht : (openHandle cmp h flags flt st).2.file.tree = some t) :
    ∃ f, (openHandle cmp h flags flt st).2.file.ctx
        ((openHandle cmp h flags flt st).2.world.dev h) = some f ∧
      ∀ env : DokanEnv, env.tree = t → env.ctx = f → SaneWide env.k → 4 ≤ f.io.shortSectorSize →
        (env.longPaths = true → ∀ p it n, itemAt t p = some it → env.name16 it.entry = some n →
          n.length ≤ 25) →
        ∀ (before : List DokanOp) (op : DokanOp), op.InRange →
          ∃ a, (dokanStep env (dokanRun env before) op).1 = .ok a := by
  obtain ⟨f, list, m, hf, _, hwf, ⟨a, _, ha⟩, _, h128, _, _, _, hent, hmem⟩ :=
    C52_opened_well_formed cmp h flags flt st (reachable_inv hst).closed hok t ht
  refine ⟨f, hf, ?_⟩
  intro env e1 e2 hk hsh hnames before op hop
  subst e1 e2
  refine sane_drive_step ⟨hk, hwf, ?_, hsh, fun p it hp => (hent _ (hmem p it hp)).1, hnames⟩
    (contextsOk_run env before) op hop
  have hpos : 0 < env.ctx.io.sectorSize := by rw [ha]; exact Nat.pow_pos (by omega)
  omega

/-- The names of the volume and of the file system are written only where they fit, end of string characters
  included. -/
theorem C105_volume_names (volumeSize systemSize : Option Nat) (n : Wide) :
    ((volumeNames volumeSize systemSize).1 = some n → n = [0x4f, 0x4c, 0x45, 0x43, 0x46, 0] ∧
      ∃ size, volumeSize = some size ∧ n.length ≤ size) ∧
    ((volumeNames volumeSize systemSize).2 = some n → n = [0x44, 0x6f, 0x6b, 0x61, 0x6e, 0] ∧
      ∃ size, systemSize = some size ∧ n.length ≤ size) := by
  have key : ∀ (name : Wide) (s : Option Nat),
      (match s with
        | some size => if size > name.length then some name else none
        | none => none) = some n → n = name ∧ ∃ size, s = some size ∧ n.length ≤ size := by
    intro name s h
    cases s with
    | none => cases h
    | some size =>
      simp only [] at h
      split at h
      · cases h; exact ⟨rfl, size, rfl, by omega⟩
      · cases h
  exact ⟨fun h => key _ volumeSize h, fun h => key _ systemSize h⟩

example : volumeNames (some 260) (some 3) = (some [0x4f, 0x4c, 0x45, 0x43, 0x46, 0], none) := rfl

/-! ### The strings of a listing -/

theorem fromLoopW_fits (k : WideCodec) (s : Wide) (size : Nat) : ∀ fuel i out m,
    fromLoopW k s size fuel i out = .ok m → m.length < size
  | fuel, i, out, m, h => by
    unfold fromLoopW at h
    split at h
    · cases fuel with
      | zero => cases h
      | succ fuel =>
        dsimp only at h
        split at h
        · cases h
        · split at h
          · split at h
            · cases h; assumption
            · cases h
          · split at h
            · exact fromLoopW_fits k s size fuel _ _ m h
            all_goals cases h
    · split at h
      · cases h; assumption
      · cases h

theorem mountSubEntryW_fits {env : DokanEnv} {e s : WideEntry} {i : Int}
    (h : mountSubEntryW env.k env.name16 env.tree e i = .ok s) : s.name.length < s.nameSize := by
  unfold mountSubEntryW at h
  split at h
  · split at h
    · rename_i name size hname
      cases h
      unfold mountFilenameW at hname
      split at hname
      · cases hname
      · split at hname
        · rename_i m hm
          cases hname
          unfold fromItemPathW at hm
          split at hm
          · cases hm
          · split at hm
            · cases hm
            · exact Nat.lt_of_le_of_lt (List.takeWhile_prefix _).length_le (fromLoopW_fits _ _ _ _ _ _ _ hm)
        all_goals cases hname
    all_goals cases h
  all_goals cases h

theorem dokanFill_fits {env : DokanEnv} {name : Wide} {size : Nat} {e : Option WideEntry} {d : FindData}
    (hn : name.length < size) (h : dokanFill env name size e = .ok d) :
    d.name.length < 260 ∧ d.alternate.length < 14 ∧ (d.alternate = d.name ∨ d.alternate = []) := by
  unfold dokanFill at h
  split at h
  · cases h
  · split at h
    · cases h
    · cases h
      refine ⟨by dsimp only; omega, ?_, ?_⟩
      · dsimp only; split
        · omega
        · decide
      · dsimp only; split
        · exact Or.inl rfl
        · exact Or.inr rfl

theorem findLoop_fits {env : DokanEnv} {e : WideEntry} : ∀ (n index : Nat) (d : FindData),
    d ∈ (findLoop env e n index).1 →
    d.name.length < 260 ∧ d.alternate.length < 14 ∧ (d.alternate = d.name ∨ d.alternate = [])
  | 0, _, d, h => by simp [findLoop] at h
  | n + 1, index, d, h => by
    unfold findLoop at h
    split at h
    · rename_i s hs
      split at h
      · rename_i x hx
        rcases List.mem_cons.1 h with h | h
        · subst h
          exact dokanFill_fits (mountSubEntryW_fits hs) hx
        · exact findLoop_fits n (index + 1) d h
      all_goals cases h
    all_goals cases h

/-- C105: both strings of every entry of a listing end within their buffers of 260 and of 14 characters, on any file;
  the second one, the alternate name, is the name or empty. -/
theorem C105_listed_names (env : DokanEnv) (path : Wide) (d : FindData) (h : d ∈ (findFiles env path).1) :
    d.name.length < 260 ∧ d.alternate.length < 14 ∧ (d.alternate = d.name ∨ d.alternate = []) := by
  unfold findFiles at h
  split at h
  · unfold findEntries at h
    split at h
    · rename_i self hself
      split at h
      · rename_i parent hparent
        dsimp only at h
        rcases List.mem_cons.1 h with h | h
        · subst h; exact dokanFill_fits (by decide) hself
        rcases List.mem_cons.1 h with h | h
        · subst h; exact dokanFill_fits (by decide) hparent
        · exact findLoop_fits _ _ d h
      all_goals
        rw [List.mem_singleton] at h
        subst h; exact dokanFill_fits (by decide) hself
    all_goals cases h
  all_goals cases h

/-- The root directory is listed with such an entry. -/
example (env : DokanEnv) (hk : IsUtf16 env.k) :
    ∃ d ∈ (findFiles env [0x5c]).1, d.name = [0x2e] ∧ d.alternate = [0x2e] := by
  have h1 : ∀ e, dokanFill env [0x2e] 2 e = .ok ⟨[0x2e], [0x2e], match e with
      | some e => entryInfo env .cleared e
      | none => setInfo .cleared 0 0 0 0 0⟩ := by
    intro e
    unfold dokanFill dokanMaxPath
    rw [if_neg (by split <;> decide), if_neg (by decide), if_pos (by decide)]
    cases e <;> rfl
  have h2 : dokanFill env [0x2e, 0x2e] 3 none = .ok ⟨[0x2e, 0x2e], [0x2e, 0x2e], setInfo .cleared 0 0 0 0 0⟩ := by
    unfold dokanFill dokanMaxPath
    rw [if_neg (by split <;> decide), if_neg (by decide), if_pos (by decide)]
  unfold findFiles
  rw [C103_root hk env.cmp env.tree]
  dsimp only
  unfold findEntries
  rw [h1, h2]
  exact ⟨_, List.mem_cons_self, rfl, rfl⟩

/-! ### Examples -/

theorem libWide_sane : SaneWide libWide := by
  refine ⟨?_, ?_⟩
  · intro s c n hs h
    change step16 s = _ at h
    cases s with
    | nil => exact absurd rfl hs
    | cons a rest =>
      by_cases ha : a.toNat < 0xd800 ∨ 0xdfff < a.toNat
      · simp only [step16, if_pos ha] at h
        cases h
        exact ⟨by omega, by simp, fun _ => rfl⟩
      · cases rest with
        | nil => simp only [step16, if_neg ha] at h; cases h
        | cons b rest =>
          simp only [step16, if_neg ha] at h
          split at h
          · rw [Option.some_inj, Prod.mk.injEq] at h
            refine ⟨by omega, by simp; omega, fun he => ?_⟩
            unfold EndsComponent at he
            omega
          · cases h
  · intro c u h
    change (if Scalar c then _ else _) = _ at h
    split at h
    · cases h
      unfold encode16
      split <;> simp
    · cases h

def sampleDrive : DokanEnv where
  k := libWide
  cmp := asciiCmpW
  name16 := asciiNameW
  tree := mountTree
  ctx := sampleCtx
  mounted := 0
  longPaths := false

theorem sampleDrive_sane : SaneDrive sampleDrive := by
  have h := sampleMount_sane
  exact ⟨libWide_sane, h.ctx, h.sector, h.short, h.fits, fun h => by cases h⟩

/-- Every operation on the sample is answered, after any others (C105_operations_answered_partial). -/
example (before : List DokanOp) (path : Wide) (i size : Nat) :
    (∃ a, (dokanStep sampleDrive (dokanRun sampleDrive before) (.find path)).1 = .ok a) ∧
    ∃ a, (dokanStep sampleDrive (dokanRun sampleDrive before) (.read i size 0)).1 = .ok a :=
  ⟨sane_drive_step sampleDrive_sane (contextsOk_run _ _) _ trivial,
    sane_drive_step sampleDrive_sane (contextsOk_run _ _) _ (by constructor <;> decide)⟩

/-- Opened after other files, and read after further operations: the context 1 of `\ab\c`
  (C105_read_history_independent). -/
example : (dokanStep sampleDrive (dokanRun sampleDrive [.openDirectory [0x5c, 97, 98], .find [0x5c]])
      (.create [0x5c, 97, 98, 0x5c, 99] 0 3)).1 = .ok (.ok (.opened 1)) ∧
    ∀ op ∈ [DokanOp.read 1 3 0, .close 0, .openDirectory [0x5c]], op ≠ .close 1 := by
  decide +kernel

/-- C105: a file that is open is not replaced: an operation that opens, for a request that has a file already, is
  answered with an error. -/
theorem C105_open_once (env : DokanEnv) (path : Wide) (access disposition : Nat) (h : DokanHandle) :
    (∃ x, createFile env path access disposition (some h) = .ok (.error x)) ∧
    (∃ x, zwCreateFile env path access disposition (some h) = .ok (.error x)) ∧
    ∃ x, openDirectory env path (some h) = .ok (.error x) := by
  have hl : dokanLookup env path (some h) = .ok (.error .badArguments) := by simp [dokanLookup]
  refine ⟨?_, ?_, _, hl⟩
  · unfold createFile
    rw [hl]
    repeat' split
    all_goals exact ⟨_, rfl⟩
  · unfold zwCreateFile
    rw [hl]
    repeat' split
    all_goals exact ⟨_, rfl⟩

end Olecf.Props
