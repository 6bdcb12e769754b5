import Verif.Lemmas.MemCore

/-! What opening a file loads, with as much memory as it asks for and with less. -/

namespace Olecf
namespace Lemmas

open Olecf.Spec Olecf.Props

variable {σ α β γ δ : Type}

theorem computes_const {m : Mem σ α} {k : α → Mem σ β} {v : Res γ} {w : Res δ} {view : α → γ}
    {view' : β → δ} {Q : α → Prop} (hm : Computes m (fun s => (v, s)) view) (hq : Ensures m Q)
    (hk : ∀ a, Q a → v = .ok (view a) → Computes (k a) (fun s => (w, s)) view')
    (h1 : v = .err → w = .err) (h2 : v = .ub → w = .ub) (h3 : v = .hang → w = .hang) :
    Computes (m >>= k) (fun s => (w, s)) view' := by
  intro s h ha
  obtain ⟨k1, k2, k3⟩ := hm s h ha
  have hq := hq s h
  rw [mem_bind]
  unfold Mem.bind
  revert k1 k2 k3 hq
  rcases m s h with ⟨r, s', h'⟩
  intro k1 k2 k3 hq
  dsimp only at k1 k2 k3
  subst k2
  cases r with
  | ok a => exact hk a (hq a rfl) k3 s' h' k1
  | err => exact ⟨k1, rfl, h1 k3⟩
  | ub => exact ⟨k1, rfl, h2 k3⟩
  | hang => exact ⟨k1, rfl, h3 k3⟩

theorem computes_val {a : α} {v : Res γ} {view : α → γ} (h : v = .ok (view a)) :
    Computes (pure a : Mem σ α) (fun s => (v, s)) view := by
  rw [h]; exact computes_pure a view

/-! ### The tree -/

/-- The outcome of the tree builder as a value. -/
def treeOutValue (t : TreeOut) : Res (Option Nat × Option (Option (Tree × List Nat))) :=
  match t.res with
  | .ok x => .ok (t.shortStart, some x)
  | .err => .ok (t.shortStart, none)
  | .ub => .ub
  | .hang => .hang

def treeOutView (t : MTreeOut) : Option Nat × Option (Option (Tree × List Nat)) :=
  (t.shortStart, if t.ok then some (treeValue t) else none)

theorem memCreateTree_computes (list : List MElem) (cmp : Bytes → Bytes → Option Bool) :
    Computes (memCreateTree list cmp : Mem σ MTreeOut)
      (fun s => (treeOutValue (createTree (entriesOf' list) cmp), s)) treeOutView := by
  unfold memCreateTree createTree
  cases list with
  | nil => exact computes_val rfl
  | cons x rest =>
    show Computes _ (fun s => (treeOutValue (match findRoot (entriesOf' (x :: rest)) with
      | none => (⟨none, .err⟩ : TreeOut)
      | some root =>
        if root.sub = UNUSED then ⟨none, .ok none⟩
        else
          match processEntry (entriesOf' (x :: rest)) cmp root.id ((entriesOf' (x :: rest)).length + 1)
              none none root ⟨[], fun _ => []⟩ with
          | .ok st => ⟨some root.start, .ok (some (⟨root, st.kids⟩, root.id :: st.marks))⟩
          | .err => ⟨some root.start, .err⟩
          | .ub => ⟨some root.start, .ub⟩
          | .hang => ⟨some root.start, .hang⟩), s)) _
    rw [← memFindRoot_map]
    cases memFindRoot (x :: rest) with
    | none => exact computes_val rfl
    | some root =>
      dsimp only [Option.map_some]
      by_cases hu : root.entry.sub = UNUSED
      · rw [if_pos hu, if_pos hu]; exact computes_val rfl
      · rw [if_neg hu, if_neg hu]
        have hlen : (entriesOf' (x :: rest)).length = (x :: rest).length := List.length_map _
        rw [hlen]
        refine computes_try (v := .ok ()) tracks_alloc (fun n _ => ?_) (fun h => by cases h)
          (fun h => by cases h) (fun h => by cases h)
        refine computes_tracks (memProcessEntry_tracks _ cmp _ _ none none root
          ⟨⟨[], fun _ => []⟩, []⟩) ⟨(⟨⟨[], fun _ => []⟩, []⟩, false), rfl⟩ (fun r hr h => ?_)
          (fun r hr h => ?_) (fun h => ?_) (fun h => ?_)
        · rw [h, if_pos hr]; exact computes_val rfl
        · rw [h, if_neg (by rw [hr]; simp)]
          exact computes_after (quiet_freeNodesOnly _) (computes_val rfl)
        · rw [h]; rfl
        · rw [h]; rfl

theorem memCreateTree_start (list : List MElem) (cmp : Bytes → Bytes → Option Bool) :
    Ensures (memCreateTree list cmp : Mem σ MTreeOut) fun t => t.ok = true →
      t.shortStart = t.tree.map (·.root.value.entry.start) := by
  unfold memCreateTree
  split
  · exact ensures_pure fun _ => rfl
  split
  · exact ensures_pure fun _ => rfl
  split
  · exact ensures_pure fun _ => rfl
  refine ensures_try (ensures_true _) (ensures_pure fun h => by cases h) fun n _ => ?_
  refine ensures_bind (ensures_true _) fun r _ => ?_
  split
  · exact ensures_pure fun _ => rfl
  · exact ensures_bind (ensures_true _) fun _ _ => ensures_pure fun h => by cases h

/-! ### Everything -/

theorem init0_tracks : Tracks (memTableInit 0 : Mem σ MTable) (.ok ⟨[]⟩) (fun _ => true) (·.table) := by
  have := memTableInit_tracks (σ := σ) 0
  rwa [init0] at this

theorem init109_tracks : Tracks (memTableInit 109 : Mem σ MTable) (.ok ⟨List.replicate 109 0⟩)
    (fun _ => true) (·.table) := by
  have := memTableInit_tracks (σ := σ) 109
  rwa [init109] at this

/-- The outcome of an open as a value: a failure leaves the IO handle. -/
def openValue (x : Out Loaded × IoHandle) : Res (IoHandle × Option Loaded) :=
  match x.1.res with
  | .ok l => .ok (x.2, some l)
  | .err => .ok (x.2, none)
  | .ub => .ub
  | .hang => .hang

def openView (r : IoHandle × Option MLoaded) : IoHandle × Option Loaded :=
  (r.1, r.2.map loadedValue)

theorem openValue_ok {io : IoHandle} {o : Out α} {f : α → Out Loaded × IoHandle} {a : α}
    (h : o.res = .ok a) : openValue (o.andThen io f) = openValue (f a) := by
  unfold Out.andThen openValue
  rw [h]

theorem openValue_err {io : IoHandle} {o : Out α} {f : α → Out Loaded × IoHandle}
    (h : o.res = .err) : openValue (o.andThen io f) = .ok (io, none) := by
  unfold Out.andThen openValue
  rw [h]
  rfl

theorem openValue_ub {io : IoHandle} {o : Out α} {f : α → Out Loaded × IoHandle}
    (h : o.res = .ub) : openValue (o.andThen io f) = .ub := by
  unfold Out.andThen openValue
  rw [h]
  rfl

theorem openValue_hang {io : IoHandle} {o : Out α} {f : α → Out Loaded × IoHandle}
    (h : o.res = .hang) : openValue (o.andThen io f) = .hang := by
  unfold Out.andThen openValue
  rw [h]
  rfl

theorem computes_cleanup {header : Option Nat} {msat sat ssat : Option MTable}
    {list : Option (Nat × List MElem)} {io : IoHandle} {w : Res (IoHandle × Option Loaded)}
    (hw : w = .ok (io, none)) :
    Computes (do
        openCleanup header msat sat ssat list
        pure (io, none) : Mem σ (IoHandle × Option MLoaded)) (fun s => (w, s)) openView :=
  computes_after (quiet_openCleanup _ _ _ _ _) (computes_val hw)

theorem memOpenTree_computes (cmp : Bytes → Bytes → Option Bool) (io : IoHandle) (header : Nat)
    (msat sat ssat : MTable) (list : Nat) (elems : List MElem) :
    Computes (memOpenTree cmp io header msat sat ssat list elems : Mem σ (IoHandle × Option MLoaded))
      (fun s => (openValue (Out.andThen (io.withShortStart (createTree (entriesOf' elems) cmp).shortStart)
        (.of (createTree (entriesOf' elems) cmp).res) fun tree =>
          (.of (.ok ⟨msat.table, sat.table, ssat.table, tree.map (·.1)⟩),
            io.withShortStart (createTree (entriesOf' elems) cmp).shortStart)), s)) openView := by
  unfold memOpenTree
  refine computes_after (quiet_release _) ?_
  refine computes_const (memCreateTree_computes elems cmp) (ensures_true _) (fun t _ ht => ?_)
    (fun h => ?_) (fun h => ?_) (fun h => ?_)
  · unfold treeOutValue treeOutView at ht
    cases hres : (createTree (entriesOf' elems) cmp).res with
    | ok x =>
      rw [hres] at ht
      simp only [Res.ok.injEq, Prod.mk.injEq] at ht
      obtain ⟨hs, ht⟩ := ht
      cases hok : t.ok with
      | true =>
        rw [hok, if_pos rfl] at ht
        rw [if_pos rfl, openValue_ok rfl, hs]
        refine computes_after (quiet_freeList (quiet_freeEntryNotInTree _) _) (computes_val ?_)
        simp only [Option.some.injEq] at ht
        rw [ht]
        unfold openValue openView loadedValue treeValue
        cases t.tree <;> rfl
      | false =>
        rw [hok] at ht
        cases ht
    | err =>
      rw [hres] at ht
      simp only [Res.ok.injEq, Prod.mk.injEq] at ht
      obtain ⟨hs, ht⟩ := ht
      cases hok : t.ok with
      | true =>
        rw [hok] at ht
        cases ht
      | false =>
        rw [if_neg (by simp)]
        refine computes_cleanup ?_
        rw [openValue_err rfl, hs]
    | ub => rw [hres] at ht; cases ht
    | hang => rw [hres] at ht; cases ht
  · unfold treeOutValue at h
    cases hres : (createTree (entriesOf' elems) cmp).res <;> rw [hres] at h <;> cases h
  · unfold treeOutValue at h
    cases hres : (createTree (entriesOf' elems) cmp).res <;> rw [hres] at h <;> cases h
    rfl
  · unfold treeOutValue at h
    cases hres : (createTree (entriesOf' elems) cmp).res <;> rw [hres] at h <;> cases h
    rfl

theorem memOpenDirectory_computes (cmp : Bytes → Bytes → Option Bool) (dev : Dev) (io : IoHandle)
    (hdr : FileHeader) (header : Nat) (msat sat ssat : MTable) :
    Computes (memOpenDirectory cmp dev io hdr header msat sat ssat : Mem σ (IoHandle × Option MLoaded))
      (fun s => (openValue (
        Out.andThen io (readDirectory io dev sat.table [] hdr.rootDirSector).1 fun _ =>
        Out.andThen (io.withShortStart (createTree (readDirectory io dev sat.table [] hdr.rootDirSector).2 cmp).shortStart)
          (.of (createTree (readDirectory io dev sat.table [] hdr.rootDirSector).2 cmp).res) fun tree =>
          (.of (.ok ⟨msat.table, sat.table, ssat.table, tree.map (·.1)⟩),
            io.withShortStart (createTree (readDirectory io dev sat.table [] hdr.rootDirSector).2 cmp).shortStart)), s))
      openView := by
  unfold memOpenDirectory
  refine computes_try (v := .ok ()) tracks_alloc (fun list _ => ?_) (fun h => by cases h)
    (fun h => by cases h) (fun h => by cases h)
  refine computes_tracks (memReadDirectory_tracks io dev sat.table _) ⟨([], false), rfl⟩
    (fun r hr h => ?_) (fun r hr h => ?_) (fun h => ?_) (fun h => ?_)
  all_goals unfold directoryValue at h
  all_goals cases hres : (readDirectory io dev sat.table [] hdr.rootDirSector).1.res <;> rw [hres] at h
  all_goals try (exfalso; revert h; intro h; cases h; done)
  · have hv : (readDirectory io dev sat.table [] hdr.rootDirSector).2 = entriesOf' r.1 := Res.ok.inj h
    rw [openValue_ok hres, if_pos hr, hv]
    exact memOpenTree_computes cmp io header msat sat ssat list r.1
  · rw [openValue_err hres, if_neg (by rw [hr]; simp)]
    exact computes_cleanup rfl
  · exact openValue_ub hres
  · exact openValue_hang hres

theorem memOpenSsat_computes (cmp : Bytes → Bytes → Option Bool) (dev : Dev) (io : IoHandle)
    (hdr : FileHeader) (header : Nat) (msat sat : MTable) {k : Nat}
    (hh : HeaderOk io hdr k) (hw : sat.table.WF) :
    Computes (memOpenSsat cmp dev io hdr header msat sat : Mem σ (IoHandle × Option MLoaded))
      (fun s => (openValue (
        Out.andThen io (readSsat io dev sat.table ⟨[]⟩ hdr.ssatSector hdr.ssatSectors) fun ssat =>
        Out.andThen io (readDirectory io dev sat.table [] hdr.rootDirSector).1 fun _ =>
        Out.andThen (io.withShortStart (createTree (readDirectory io dev sat.table [] hdr.rootDirSector).2 cmp).shortStart)
          (.of (createTree (readDirectory io dev sat.table [] hdr.rootDirSector).2 cmp).res) fun tree =>
          (.of (.ok ⟨msat.table, sat.table, ssat, tree.map (·.1)⟩),
            io.withShortStart (createTree (readDirectory io dev sat.table [] hdr.rootDirSector).2 cmp).shortStart)), s))
      openView := by
  unfold memOpenSsat
  refine computes_try init0_tracks
    (fun ssat hs => ?_) (fun h => by cases h) (fun h => by cases h) (fun h => by cases h)
  have hs : ssat.table = ⟨[]⟩ := (Res.ok.inj hs).symm
  refine computes_const (memReadSsat_computes hs hh.k_le hh.size hw hh.ssat)
    (memReadSsat_ensures hs hh.k_le hh.size) (fun r hr h => ?_) (fun h => ?_) (fun h => ?_) (fun h => ?_)
  · rw [hr.1, if_pos rfl, openValue_ok h]
    exact memOpenDirectory_computes cmp dev io hdr header msat sat r.1
  all_goals
    obtain ⟨v, hv, _⟩ := readSsat_ok (dev := dev) (count := hdr.ssatSectors) hh.k_le hh.size hw hh.ssat
    rw [h] at hv
    cases hv

theorem memOpenSat_computes (cmp : Bytes → Bytes → Option Bool) (dev : Dev) (io : IoHandle)
    (hdr : FileHeader) (header : Nat) (msat : MTable) {k : Nat}
    (hh : HeaderOk io hdr k) (hw : msat.table.WF) :
    Computes (memOpenSat cmp dev io hdr header msat : Mem σ (IoHandle × Option MLoaded))
      (fun s => (openValue (
        Out.andThen io (readSat io dev msat.table ⟨[]⟩ hdr.satSectors) fun sat =>
        Out.andThen io (readSsat io dev sat ⟨[]⟩ hdr.ssatSector hdr.ssatSectors) fun ssat =>
        Out.andThen io (readDirectory io dev sat [] hdr.rootDirSector).1 fun _ =>
        Out.andThen (io.withShortStart (createTree (readDirectory io dev sat [] hdr.rootDirSector).2 cmp).shortStart)
          (.of (createTree (readDirectory io dev sat [] hdr.rootDirSector).2 cmp).res) fun tree =>
          (.of (.ok ⟨msat.table, sat, ssat, tree.map (·.1)⟩),
            io.withShortStart (createTree (readDirectory io dev sat [] hdr.rootDirSector).2 cmp).shortStart)), s))
      openView := by
  unfold memOpenSat
  refine computes_try init0_tracks
    (fun sat hs => ?_) (fun h => by cases h) (fun h => by cases h) (fun h => by cases h)
  have hs : sat.table = ⟨[]⟩ := (Res.ok.inj hs).symm
  obtain ⟨v, hv, hvw, _⟩ := readSat_safe io dev msat.table hdr.satSectors k hh.k_le hh.size hw.lt
  refine computes_const (memReadSat_computes hs hh.k_le hh.size hw.lt)
    (memReadSat_ensures hs hh.k_le hh.size) (fun r hr h => ?_) (fun h => ?_) (fun h => ?_) (fun h => ?_)
  · rw [hr.1, if_pos rfl, openValue_ok h]
    exact memOpenSsat_computes cmp dev io hdr header msat r.1 hh (hr.2.wf hv hvw)
  all_goals
    rw [h] at hv
    cases hv

theorem memOpenCore_computes (cmp : Bytes → Bytes → Option Bool) (dev : Dev) (io : IoHandle) :
    Computes (memOpenCore cmp dev io : Mem σ (IoHandle × Option MLoaded))
      (fun s => (openValue (openCore cmp dev io), s)) openView := by
  rw [openCore_eq]
  unfold memOpenCore
  refine computes_try (v := .ok ()) tracks_alloc (fun header _ => ?_) (fun h => by cases h)
    (fun h => by cases h) (fun h => by cases h)
  refine computes_try init109_tracks
    (fun msat hm => ?_) (fun h => by cases h) (fun h => by cases h) (fun h => by cases h)
  have hm : msat.table = ⟨List.replicate 109 0⟩ := (Res.ok.inj hm).symm
  dsimp only
  rw [hm]
  refine computes_try (tracks_of _) (fun x hx => ?_) (fun h => ?_) (fun h => ?_) (fun h => ?_)
  · obtain ⟨hw, hid, k, hh⟩ := headerOk io hx
    rw [openValue_ok hx]
    refine computes_tracks (memReadMsat_tracks _ _ _ _ _) ⟨(msat, false), rfl⟩ (fun r hr h => ?_)
      (fun r hr h => ?_) (fun h => ?_) (fun h => ?_)
    · dsimp only [id] at h ⊢
      rw [if_pos hr, openValue_ok h]
      exact memOpenSat_computes cmp dev _ x.1 header r.1 hh (readMsat_wf hid hw h)
    · dsimp only [id] at h ⊢
      rw [if_neg (by rw [hr]; simp), openValue_err h]
      exact computes_cleanup rfl
    · exact openValue_ub h
    · exact openValue_hang h
  · rw [openValue_err h]
    exact computes_cleanup rfl
  · exact openValue_ub h
  · exact openValue_hang h

/-! ### With any memory -/

/-- What an open that succeeded has loaded, however much memory there was. -/
structure LoadedAs (cmp : Bytes → Bytes → Option Bool) (dev : Dev) (io io' : IoHandle)
    (hdr : FileHeader) (l : Loaded) : Prop where
  sat : ReadOrBlank (readSat io dev l.msat ⟨[]⟩ hdr.satSectors).res
    (tableSize hdr.satSectors (io.sectorSize / 4)) l.sat
  ssat : ReadOrBlank (readSsat io dev l.sat ⟨[]⟩ hdr.ssatSector hdr.ssatSectors).res
    (tableSize hdr.ssatSectors (io.sectorSize / 4)) l.ssat
  dir : (readDirectory io dev l.sat [] hdr.rootDirSector).1.res = .ok ()
  tree : ∃ x, (createTree (readDirectory io dev l.sat [] hdr.rootDirSector).2 cmp).res = .ok x ∧
    l.tree = x.map (·.1)
  io_eq : io' = io.withShortStart (l.tree.map (·.root.start))

theorem ensures_cleanup {header : Option Nat} {msat sat ssat : Option MTable}
    {list : Option (Nat × List MElem)} {io : IoHandle} {P : IoHandle × Option MLoaded → Prop}
    (h : P (io, none)) :
    Ensures (do
        openCleanup header msat sat ssat list
        pure (io, none) : Mem σ (IoHandle × Option MLoaded)) P :=
  ensures_bind (ensures_true _) fun _ _ => ensures_pure h

theorem memOpenTree_ensures (cmp : Bytes → Bytes → Option Bool) (io : IoHandle) (header : Nat)
    (msat sat ssat : MTable) (list : Nat) (elems : List MElem) :
    Ensures (memOpenTree cmp io header msat sat ssat list elems : Mem σ (IoHandle × Option MLoaded))
      fun r => ∀ l, r.2 = some l → l.msat = msat ∧ l.sat = sat ∧ l.ssat = ssat ∧
        (∃ x, (createTree (entriesOf' elems) cmp).res = .ok x ∧ (loadedValue l).tree = x.map (·.1)) ∧
        r.1 = io.withShortStart ((loadedValue l).tree.map (·.root.start)) := by
  unfold memOpenTree
  refine ensures_bind (ensures_true _) fun _ _ => ?_
  refine ensures_bind (Q := fun t =>
      (t.ok = true → (createTree (entriesOf' elems) cmp).res = .ok (treeValue t)) ∧
      (t.ok = true → t.shortStart = t.tree.map (·.root.value.entry.start)))
    (fun s h a ha => ⟨tracks_ensures (memCreateTree_tracks elems cmp) s h a ha,
      memCreateTree_start elems cmp s h a ha⟩) fun t ht => ?_
  split
  · rename_i hok
    refine ensures_bind (ensures_true _) fun _ _ => ensures_pure fun l hl => ?_
    cases hl
    refine ⟨rfl, rfl, rfl, ⟨_, ht.1 hok, ?_⟩, ?_⟩
    · unfold loadedValue treeValue
      cases t.tree <;> rfl
    · rw [ht.2 hok]
      unfold loadedValue
      cases t.tree <;> rfl
  · exact (ensures_cleanup fun _ h => by cases h)

theorem memOpenDirectory_ensures (cmp : Bytes → Bytes → Option Bool) (dev : Dev) (io : IoHandle)
    (hdr : FileHeader) (header : Nat) (msat sat ssat : MTable) :
    Ensures (memOpenDirectory cmp dev io hdr header msat sat ssat : Mem σ (IoHandle × Option MLoaded))
      fun r => ∀ l, r.2 = some l → l.msat = msat ∧ l.sat = sat ∧ l.ssat = ssat ∧
        (readDirectory io dev sat.table [] hdr.rootDirSector).1.res = .ok () ∧
        (∃ x, (createTree (readDirectory io dev sat.table [] hdr.rootDirSector).2 cmp).res = .ok x ∧
          (loadedValue l).tree = x.map (·.1)) ∧
        r.1 = io.withShortStart ((loadedValue l).tree.map (·.root.start)) := by
  unfold memOpenDirectory
  refine ensures_try (ensures_true _) (ensures_cleanup fun _ h => by cases h) fun list _ => ?_
  refine ensures_bind (tracks_ensures (memReadDirectory_tracks io dev sat.table _)) fun r hr => ?_
  split
  · rename_i hok
    have h := hr hok
    unfold directoryValue at h
    cases hres : (readDirectory io dev sat.table [] hdr.rootDirSector).1.res with
    | ok u =>
      rw [hres] at h
      have hv : (readDirectory io dev sat.table [] hdr.rootDirSector).2 = entriesOf' r.1 := Res.ok.inj h
      rw [hv]
      intro s hp a ha l hl
      obtain ⟨h1, h2, h3, h4⟩ := memOpenTree_ensures cmp io header msat sat ssat list r.1 s hp a ha l hl
      exact ⟨h1, h2, h3, rfl, h4⟩
    | _ => rw [hres] at h; cases h
  · exact (ensures_cleanup fun _ h => by cases h)

theorem memOpenCore_ensures (cmp : Bytes → Bytes → Option Bool) (dev : Dev) (io : IoHandle) :
    Ensures (memOpenCore cmp dev io : Mem σ (IoHandle × Option MLoaded))
      fun r => ∀ l, r.2 = some l → ∃ hdr t0,
        (headerRead dev ⟨List.replicate 109 0⟩).res = .ok (hdr, t0) ∧
        (readMsat (io.withHeader hdr) dev t0 hdr.msatSector hdr.msatSectors).res = .ok (loadedValue l).msat ∧
        LoadedAs cmp dev (io.withHeader hdr) r.1 hdr (loadedValue l) := by
  unfold memOpenCore
  refine ensures_try (ensures_true _) (ensures_pure fun _ h => by cases h) fun header _ => ?_
  refine ensures_try init109_ensures (ensures_cleanup fun _ h => by cases h) fun msat hm => ?_
  dsimp only
  rw [hm]
  refine ensures_try ensures_of (ensures_cleanup fun _ h => by cases h) fun x hx => ?_
  obtain ⟨hw, hid, k, hh⟩ := headerOk io hx
  refine ensures_bind (tracks_ensures (memReadMsat_tracks _ _ _ _ _)) fun m hmr => ?_
  split
  · rename_i hok
    have hmv := hmr hok
    unfold memOpenSat
    refine ensures_try init0_ensures (ensures_cleanup fun _ h => by cases h) fun sat hs => ?_
    refine ensures_bind (memReadSat_ensures hs hh.k_le hh.size) fun st hst => ?_
    rw [hst.1, if_pos rfl]
    unfold memOpenSsat
    refine ensures_try init0_ensures (ensures_cleanup fun _ h => by cases h) fun ssat hss => ?_
    refine ensures_bind (memReadSsat_ensures hss hh.k_le hh.size) fun sst hsst => ?_
    rw [hsst.1, if_pos rfl]
    intro s hp a ha l hl
    obtain ⟨h1, h2, h3, h4, h5, h6⟩ :=
      memOpenDirectory_ensures cmp dev _ x.1 header m.1 st.1 sst.1 s hp a ha l hl
    refine ⟨x.1, x.2, hx, ?_, ?_, ?_, ?_, ?_, h6⟩
    · rw [loadedValue, h1]; exact hmv
    · rw [loadedValue, h1, h2]; exact hst.2
    · rw [loadedValue, h2, h3]; exact hsst.2
    · rw [loadedValue, h2]; exact h4
    · rw [loadedValue, h2]; exact h5
  · exact (ensures_cleanup fun _ h => by cases h)

end Lemmas
end Olecf
