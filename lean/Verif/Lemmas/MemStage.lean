import Verif.Lemmas.MemTree

/-! The stages of opening a file: the blocks, and that the outcome is defined. -/

namespace Olecf
namespace Lemmas

open Olecf.Spec Olecf.Props

variable {σ α β γ : Type}

/-- The outcome is defined. -/
def Safe (m : Mem σ α) : Prop := ∀ s h, (m s h).1.Defined

theorem safe_quiet {c : Mem σ Unit} (hc : Quiet c) : Safe c := fun s h => by
  rw [(hc s h).1]; trivial

theorem safe_pure (a : α) : Safe (pure a : Mem σ α) := fun _ _ => trivial

theorem safe_bind {m : Mem σ α} {k : α → Mem σ β} {Q : α → Prop} (hm : Safe m) (hq : Ensures m Q)
    (hk : ∀ a, Q a → Safe (k a)) : Safe (m >>= k) := by
  intro s h
  have h1 := hm s h
  have h2 := hq s h
  rw [mem_bind]
  unfold Mem.bind
  revert h1 h2
  rcases m s h with ⟨r, s', h'⟩
  intro h1 h2
  cases r with
  | ok a => exact hk a (h2 a rfl) s' h'
  | err => trivial
  | ub => exact h1
  | hang => exact h1

theorem safe_tracks {m : Mem σ α} {v : Res γ} {flag : α → Bool} {view : α → γ}
    (hm : Tracks m v flag view) (hv : v.Defined) : Safe m := by
  intro s h
  have := (hm s h).2.2
  cases hr : (m s h).1 with
  | ok a => trivial
  | err => trivial
  | ub => rw [hr] at this; change v = .ub at this; rw [this] at hv; exact hv
  | hang => rw [hr] at this; change v = .hang at this; rw [this] at hv; exact hv

theorem safe_attempt {m : Mem σ α} (hm : Safe m) : Safe m.attempt := by
  intro s h
  have h1 := hm s h
  unfold Mem.attempt
  revert h1
  rcases m s h with ⟨r, s', h'⟩
  intro h1
  cases r <;> trivial

theorem ensures_attempt {m : Mem σ α} {Q : α → Prop} (hm : Ensures m Q) :
    Ensures m.attempt (fun o => ∀ a, o = some a → Q a) := by
  intro s h o hh a ha
  subst ha
  have h1 := hm s h
  unfold Mem.attempt at hh
  revert h1 hh
  rcases m s h with ⟨r, s', h'⟩
  intro hh h1
  cases r with
  | ok b => cases hh; exact h1 _ rfl
  | err => cases hh
  | ub => cases hh
  | hang => cases hh

/-- The blocks before and after, with an outcome that is defined and not a failure. -/
structure Stage (pre : List Nat) (m : Mem σ α) (post : α → List Nat) : Prop where
  blocks : Triple pre m post (fun _ => False)
  safe : Safe m

theorem stage_bind {pre : List Nat} {m : Mem σ α} {k : α → Mem σ β} {mid : α → List Nat}
    {post : β → List Nat} {Q : α → Prop} (hm : Stage pre m mid) (hq : Ensures m Q)
    (hk : ∀ a, Q a → Stage (mid a) (k a) post) : Stage pre (m >>= k) post :=
  ⟨triple_bind_val hm.blocks hq fun a ha => (hk a ha).blocks,
    safe_bind hm.safe hq fun a ha => (hk a ha).safe⟩

theorem stage_try {pre l' : List Nat} {m : Mem σ α} {k : Option α → Mem σ β}
    {mid : α → List Nat} {post : β → List Nat} {Q : α → Prop}
    (hm : Triple pre m mid (·.Perm l')) (hs : Safe m) (hq : Ensures m Q)
    (hn : Stage l' (k none) post) (hk : ∀ a, Q a → Stage (mid a) (k (some a)) post) :
    Stage pre (m.attempt >>= k) post := by
  refine stage_bind (mid := fun o => o.elim l' mid) ⟨triple_attempt hm, safe_attempt hs⟩
    (ensures_attempt hq) fun o ho => ?_
  cases o with
  | none => exact hn
  | some a => exact hk a (ho a rfl)

theorem stage_quiet {pre mid : List Nat} {c : Mem σ Unit} {k : Unit → Mem σ β}
    {post : β → List Nat} (hc : Quiet c) (ht : Triple pre c (fun _ => mid) (fun _ => False))
    (hk : Stage mid (k ()) post) : Stage pre (c >>= k) post :=
  stage_bind ⟨ht, safe_quiet hc⟩ (ensures_true _) fun _ _ => hk

theorem stage_pure {pre : List Nat} {a : α} {post : α → List Nat} (h : pre.Perm (post a)) :
    Stage pre (pure a : Mem σ α) post := ⟨triple_pure h, safe_pure a⟩

theorem stage_pre {pre pre' : List Nat} {m : Mem σ α} {post : α → List Nat}
    (h : Stage pre m post) (hp : pre'.Perm pre) : Stage pre' m post :=
  ⟨triple_pre h.blocks hp, h.safe⟩

theorem safe_alloc : Safe (Mem.alloc : Mem σ Nat) := safe_tracks tracks_alloc trivial

/-! ### The list and the tree -/

/-- The blocks of an element that stay when the entries that are not in the tree are freed. -/
def kept (marks : List Nat) (x : MElem) : List Nat :=
  if x.value.entry.id ∈ marks then entryBlocks x.value else []

theorem freeRest_spec (marks : List Nat) {exc : List Nat → Prop} : ∀ (l : List MElem) (fr : List Nat),
    Triple (l.flatMap elemBlocks ++ fr)
      (Mem.forEach (freeElem (freeEntryNotInTree marks)) l : Mem σ Unit)
      (fun _ => l.flatMap (kept marks) ++ fr) exc
  | [], fr => triple_pure (.refl _)
  | x :: l, fr => by
    unfold Mem.forEach
    refine triple_bind (mid := fun _ => l.flatMap elemBlocks ++ (kept marks x ++ fr)) ?_ fun _ => ?_
    · unfold freeElem
      refine triple_use' (by simp [elemBlocks]) ?_
      refine triple_bind (mid := fun _ => x.block :: (l.flatMap elemBlocks ++ (kept marks x ++ fr))) ?_
        fun _ => triple_release_head
      unfold freeEntryNotInTree
      refine triple_use' (by simp [elemBlocks, entryBlocks]) ?_
      unfold kept
      split
      · exact triple_pure (by blocks)
      · refine triple_bind (mid := fun _ => x.value.block :: x.block :: (l.flatMap elemBlocks ++ fr))
          ?_ fun _ => triple_release_head
        exact triple_pre triple_releaseOpt (by blocks)
    · refine triple_weaken (freeRest_spec marks l (kept marks x ++ fr)) (.refl _) (fun _ => ?_)
        (fun _ h => h)
      blocks

theorem addVisits_marks_eq (es : List Visit) : ∀ st : TreeState,
    (addVisits st es).marks = (es.map (·.entry.id)).reverse ++ st.marks := by
  induction es with
  | nil => intro st; rfl
  | cons v es ih =>
    intro st
    rw [addVisits, List.foldl_cons]
    have := ih (addVisit st v)
    rw [addVisits] at this
    rw [this]
    simp [addVisit]

theorem createTree_marks {list : List DirEntry} {cmp : Bytes → Bytes → Option Bool} {t : Tree}
    {m : List Nat} (hnd : (list.map (·.id)).Nodup)
    (h : (createTree list cmp).res = .ok (some (t, m))) : m.Nodup := by
  obtain ⟨hroot, _, _, st, hp, -, hm⟩ := createTree_some h
  obtain ⟨huniq, -, hpr, hne, -⟩ := (run_graph_iff list cmp _ hroot hnd).1 ⟨st, hp⟩
  obtain ⟨es, -, -, -, -, hv, hf, -, hst⟩ := (run_iff list cmp t.root.id).1 hp
  obtain ⟨v1, -⟩ := root_visits list t.root.id hpr hne hv
  rw [hm, hst, addVisits_marks_eq]
  simp only [List.append_nil, List.nodup_cons, List.mem_reverse, List.mem_map]
  refine ⟨?_, (List.reverse_perm _).nodup_iff.2 hf.1⟩
  rintro ⟨v, hv, he⟩
  obtain ⟨h1, h2⟩ := v1 v hv
  exact h2 (huniq [] v.path _ _ rfl h1 he.symm).symm

theorem nodup_of_map (f : α → β) {l : List α} (h : (l.map f).Nodup) : l.Nodup := by
  rw [List.Nodup, List.pairwise_map] at h
  exact h.imp fun hab he => hab (congrArg f he)

/-- The entries that stay are those of the nodes. -/
theorem kept_nodes {list : List MElem} {nodes : List MNode}
    (hnd : ((entriesOf' list).map (·.id)).Nodup) (hm : (nodes.map (·.value.entry.id)).Nodup)
    (hv : ∀ n ∈ nodes, ∃ x ∈ list, x.value = n.value) :
    (list.flatMap (kept (nodes.map (·.value.entry.id))) ++ nodes.map (·.block)).Perm
      (nodes.flatMap nodeBlocks) := by
  have hid : (list.map (·.value.entry.id)).Nodup := by
    have : (entriesOf' list).map (·.id) = list.map (·.value.entry.id) := by
      simp [entriesOf']
    rwa [this] at hnd
  -- as lists of elements
  have hperm : ((list.filter (fun x => x.value.entry.id ∈ nodes.map (·.value.entry.id))).map (·.value)).Perm
      (nodes.map (·.value)) := by
    refine (List.perm_ext_iff_of_nodup ?_ ?_).2 ?_
    · have : ((list.filter (fun x => x.value.entry.id ∈ nodes.map (·.value.entry.id))).map
          (·.value.entry.id)).Nodup := hid.sublist (List.filter_sublist.map _)
      refine nodup_of_map (fun d : MEntry => d.entry.id) ?_
      rw [List.map_map]
      exact this
    · refine nodup_of_map (fun d : MEntry => d.entry.id) ?_
      rw [List.map_map]
      exact hm
    · intro d
      simp only [List.mem_map, List.mem_filter, decide_eq_true_eq]
      constructor
      · rintro ⟨x, ⟨hx, n, hn, he⟩, rfl⟩
        obtain ⟨y, hy, hyn⟩ := hv n hn
        have : y = x := nodup_map_inj hid hy hx (by rw [hyn]; exact he)
        subst this
        exact ⟨n, hn, hyn.symm⟩
      · rintro ⟨n, hn, rfl⟩
        obtain ⟨y, hy, hyn⟩ := hv n hn
        exact ⟨y, ⟨hy, n, hn, by rw [hyn]⟩, hyn⟩
  have h1 : list.flatMap (kept (nodes.map (·.value.entry.id))) =
      ((list.filter (fun x => x.value.entry.id ∈ nodes.map (·.value.entry.id))).map (·.value)).flatMap
        entryBlocks := by
    generalize nodes.map (·.value.entry.id) = m
    clear hperm hv hm hnd hid
    induction list with
    | nil => rfl
    | cons x rest ih =>
      rw [List.flatMap_cons, ih, List.filter_cons]
      unfold kept
      by_cases h : x.value.entry.id ∈ m
      · rw [if_pos h, if_pos (by simpa using h)]; simp
      · rw [if_neg h, if_neg (by simpa using h)]; simp
  rw [h1]
  refine ((hperm.flatMap_right entryBlocks).append_right _).trans ?_
  clear h1 hperm hv hm
  induction nodes with
  | nil => exact .refl _
  | cons n rest ih =>
    rw [List.perm_iff_count] at ih ⊢
    intro b
    have := ih b
    simp only [nodeBlocks, List.map_cons, List.flatMap_cons, List.count_append, List.count_cons] at this ⊢
    omega

/-! ### Tables whose failures are ignored -/

/-- The common part of `memReadSat` and `memReadSsat`. -/
def memFill (t : MTable) (k : Int) (o : AllocTable → Res AllocTable) : Mem σ (MTable × Bool) := do
  match ← memGrow t k with
  | none => pure (t, true)
  | some t =>
    match ← memWithBuffer (o t.table) with
    | none => pure (t, true)
    | some ids => pure ({ t with table := ids }, true)

/-- What the grown table is. -/
def grown (t : AllocTable) (k : Int) : Res AllocTable :=
  if (t.n : Int) < k then t.resize k else .ok t

theorem fill_ensures (t : MTable) (k : Int) (o : AllocTable → Res AllocTable) :
    Ensures (memFill t k o : Mem σ (MTable × Bool)) fun r => r.2 = true ∧
      (r.1.table = t.table ∨ ∃ g, grown t.table k = .ok g ∧ (r.1.table = g ∨ o g = .ok r.1.table)) := by
  unfold memFill
  refine ensures_bind (tracks_ensures (memGrow_tracks t k)) fun a ha => ?_
  cases a with
  | none => exact ensures_pure ⟨rfl, .inl rfl⟩
  | some t' =>
    have hg : grown t.table k = .ok t'.table := ha rfl
    refine ensures_bind (tracks_ensures (memWithBuffer_tracks (o t'.table))) fun b hb => ?_
    cases b with
    | none => exact ensures_pure ⟨rfl, .inr ⟨_, hg, .inl rfl⟩⟩
    | some ids => exact ensures_pure ⟨rfl, .inr ⟨_, hg, .inr (hb rfl)⟩⟩

theorem fill_safe (t : MTable) (k : Int) (o : AllocTable → Res AllocTable)
    (ho : ∀ g, grown t.table k = .ok g → (o g).Defined) :
    Safe (memFill t k o : Mem σ (MTable × Bool)) := by
  unfold memFill
  refine safe_bind (safe_tracks (memGrow_tracks t k) ?_) (tracks_ensures (memGrow_tracks t k))
    fun a ha => ?_
  · rcases grow_cases t.table k with hg | ⟨t', hg⟩ <;> rw [hg] <;> trivial
  cases a with
  | none => exact safe_pure _
  | some t' =>
    refine safe_bind (safe_tracks (memWithBuffer_tracks _) (ho _ (ha rfl))) (ensures_true _)
      fun b _ => ?_
    cases b <;> exact safe_pure _

theorem fill_computes (t : MTable) (k : Int) (o : AllocTable → Res AllocTable) (v : AllocTable)
    (hv : (match grown t.table k with | .ok g => o g | _ => .ok t.table) = .ok v) :
    Computes (memFill t k o : Mem σ (MTable × Bool)) (fun s => (.ok v, s)) (fun r => r.1.table) := by
  unfold memFill
  refine computes_tracks (memGrow_tracks t k) ⟨none, rfl⟩ (fun a ha h => ?_) (fun a ha h => ?_)
    (fun h => ?_) (fun h => ?_)
  · cases a with
    | none => cases ha
    | some t' =>
      replace h : grown t.table k = .ok t'.table := h
      rw [h] at hv
      dsimp only at hv ⊢
      refine computes_tracks (memWithBuffer_tracks (o t'.table)) ⟨none, rfl⟩ (fun b hb h => ?_)
        (fun b hb h => ?_) (fun h => ?_) (fun h => ?_)
      · cases b with
        | none => cases hb
        | some ids =>
          have : v = ids := by
            have := hv.symm.trans h
            cases this; rfl
          subst this
          exact computes_pure ({ t' with table := v }, true) (fun r : MTable × Bool => r.1.table)
      · rw [hv] at h; cases h
      · rw [hv] at h; cases h
      · rw [hv] at h; cases h
  · cases a with
    | some t' => cases ha
    | none =>
      replace h : grown t.table k = .err := h
      rw [h] at hv
      cases hv
      exact computes_pure (t, true) (fun r : MTable × Bool => r.1.table)
  · rcases grow_cases t.table k with hg | ⟨t', hg⟩ <;> rw [hg] at h <;> cases h
  · rcases grow_cases t.table k with hg | ⟨t', hg⟩ <;> rw [hg] at h <;> cases h

/-- A table that was read, or one that was left without its contents because memory was short. -/
def ReadOrBlank (value : Res AllocTable) (size : Nat) (t : AllocTable) : Prop :=
  value = .ok t ∨ t = ⟨[]⟩ ∨ t = ⟨List.replicate size 0⟩

theorem ReadOrBlank.wf {value : Res AllocTable} {t v : AllocTable} {count entries : Nat}
    (h : ReadOrBlank value (tableSize count entries) t) (hv : value = .ok v) (hw : v.WF) : t.WF := by
  rcases h with h | h | h
  · rw [hv] at h; cases h; exact hw
  · rw [h]; exact replicate_WF (n := 0) (by omega)
  · rw [h]; exact replicate_WF (tableSize_le _ _)

theorem fill_blank {t : MTable} {count entries : Nat} {o : AllocTable → Res AllocTable}
    (ht : t.table = ⟨[]⟩) {r : MTable × Bool}
    (h : r.1.table = t.table ∨ ∃ g, grown t.table (toInt32 (count * entries)) = .ok g ∧
      (r.1.table = g ∨ o g = .ok r.1.table)) :
    ReadOrBlank (match grown ⟨[]⟩ (toInt32 (count * entries)) with | .ok g => o g | _ => .ok ⟨[]⟩)
      (tableSize count entries) r.1.table := by
  rw [ht] at h
  rcases h with h | ⟨g, hg, h⟩
  · exact .inr (.inl h)
  · rw [hg]
    rcases h with h | h
    · refine .inr (.inr ?_)
      rw [h]
      rcases sizeEmpty count entries with ⟨t', ht', rfl⟩ | ⟨he, _⟩
      · exact Res.ok.inj (hg.symm.trans ht')
      · cases hg.symm.trans he
    · exact .inl h

section Sat
variable {io : IoHandle} {dev : Dev} {msat : AllocTable} {t : MTable} {count k : Nat}

theorem sizeOk (hk : k ≤ 15) (hs : io.sectorSize = 2 ^ k) :
    ¬ (io.sectorSize = 0 ∨ io.sectorSize > MAX_ALLOC) := by
  have hp : 0 < 2 ^ k := Nat.pow_pos (by omega)
  have hle : 2 ^ k ≤ 2 ^ 15 := Nat.pow_le_pow_right (by omega) hk
  rw [hs, MAX_ALLOC]
  omega

theorem memReadSat_eq (hk : k ≤ 15) (hs : io.sectorSize = 2 ^ k) :
    (memReadSat io dev msat t count : Mem σ (MTable × Bool)) =
      memFill t (toInt32 (count * (io.sectorSize / 4)))
        (fun g => (satLoop io dev (io.sectorSize / 4) msat.ids 0 g).res) := by
  unfold memReadSat
  rw [if_neg (sizeOk hk hs)]
  rfl

theorem readSat_match (hk : k ≤ 15) (hs : io.sectorSize = 2 ^ k) :
    (match grown ⟨[]⟩ (toInt32 (count * (io.sectorSize / 4))) with
      | .ok g => (satLoop io dev (io.sectorSize / 4) msat.ids 0 g).res
      | _ => .ok ⟨[]⟩) = (readSat io dev msat ⟨[]⟩ count).res := by
  unfold readSat grown
  rw [if_neg (sizeOk hk hs)]
  dsimp only
  cases (if ((⟨[]⟩ : AllocTable).n : Int) < toInt32 (count * (io.sectorSize / 4)) then
    (⟨[]⟩ : AllocTable).resize (toInt32 (count * (io.sectorSize / 4))) else Res.ok ⟨[]⟩) <;> rfl

theorem memReadSat_ensures (ht : t.table = ⟨[]⟩) (hk : k ≤ 15) (hs : io.sectorSize = 2 ^ k) :
    Ensures (memReadSat io dev msat t count : Mem σ (MTable × Bool)) fun r => r.2 = true ∧
      ReadOrBlank (readSat io dev msat ⟨[]⟩ count).res (tableSize count (io.sectorSize / 4)) r.1.table := by
  rw [memReadSat_eq hk hs, ← readSat_match hk hs]
  exact fun s h a ha => ⟨(fill_ensures _ _ _ s h a ha).1, fill_blank ht (fill_ensures _ _ _ s h a ha).2⟩

theorem memReadSat_safe (ht : t.table = ⟨[]⟩) (hk : k ≤ 15) (hs : io.sectorSize = 2 ^ k)
    (hids : ∀ v ∈ msat.ids, v < 2 ^ 32) :
    Safe (memReadSat io dev msat t count : Mem σ (MTable × Bool)) := by
  rw [memReadSat_eq hk hs]
  refine fill_safe _ _ _ fun g hg => ?_
  have h := readSat_match (dev := dev) (msat := msat) (count := count) hk hs
  rw [ht] at hg
  rw [hg] at h
  obtain ⟨t', h', _⟩ := readSat_safe io dev msat count k hk hs hids
  dsimp only at h
  rw [h, h']
  trivial

theorem memReadSat_computes (ht : t.table = ⟨[]⟩) (hk : k ≤ 15) (hs : io.sectorSize = 2 ^ k)
    (hids : ∀ v ∈ msat.ids, v < 2 ^ 32) :
    Computes (memReadSat io dev msat t count : Mem σ (MTable × Bool))
      (fun s => ((readSat io dev msat ⟨[]⟩ count).res, s)) (fun r => r.1.table) := by
  obtain ⟨t', h', _⟩ := readSat_safe io dev msat count k hk hs hids
  rw [h', memReadSat_eq hk hs]
  refine fill_computes _ _ _ _ ?_
  rw [ht, readSat_match hk hs, h']

variable {sat : AllocTable} {id : Nat}

theorem memReadSsat_eq (hk : k ≤ 15) (hs : io.sectorSize = 2 ^ k) :
    (memReadSsat io dev sat t id count : Mem σ (MTable × Bool)) =
      memFill t (toInt32 (count * (io.sectorSize / 4)))
        (fun g => (ssatLoop io dev sat (io.sectorSize / 4) count tableFuel id 0 0 g).res) := by
  unfold memReadSsat
  rw [if_neg (sizeOk hk hs)]
  rfl

theorem readSsat_match (hk : k ≤ 15) (hs : io.sectorSize = 2 ^ k) :
    (match grown ⟨[]⟩ (toInt32 (count * (io.sectorSize / 4))) with
      | .ok g => (ssatLoop io dev sat (io.sectorSize / 4) count tableFuel id 0 0 g).res
      | _ => .ok ⟨[]⟩) = (readSsat io dev sat ⟨[]⟩ id count).res := by
  unfold readSsat grown
  rw [if_neg (sizeOk hk hs)]
  dsimp only
  cases (if ((⟨[]⟩ : AllocTable).n : Int) < toInt32 (count * (io.sectorSize / 4)) then
    (⟨[]⟩ : AllocTable).resize (toInt32 (count * (io.sectorSize / 4))) else Res.ok ⟨[]⟩) <;> rfl

theorem readSsat_ok (hk : k ≤ 15) (hs : io.sectorSize = 2 ^ k) (hw : sat.WF) (hid : id < 2 ^ 32) :
    ∃ v, (readSsat io dev sat ⟨[]⟩ id count).res = .ok v ∧ v.WF := by
  have hp : 0 < 2 ^ k := Nat.pow_pos (by omega)
  have hle : 2 ^ k ≤ 2 ^ 15 := Nat.pow_le_pow_right (by omega) hk
  obtain ⟨⟨t, ht, _, hw⟩, _⟩ := readSsat_safe io dev sat id count
    (by rw [hs]; exact hp) (by rw [hs, MAX_ALLOC]; omega) hw hid
  exact ⟨t, ht, hw⟩

theorem memReadSsat_ensures (ht : t.table = ⟨[]⟩) (hk : k ≤ 15) (hs : io.sectorSize = 2 ^ k) :
    Ensures (memReadSsat io dev sat t id count : Mem σ (MTable × Bool)) fun r => r.2 = true ∧
      ReadOrBlank (readSsat io dev sat ⟨[]⟩ id count).res (tableSize count (io.sectorSize / 4))
        r.1.table := by
  rw [memReadSsat_eq hk hs, ← readSsat_match hk hs]
  exact fun s h a ha => ⟨(fill_ensures _ _ _ s h a ha).1, fill_blank ht (fill_ensures _ _ _ s h a ha).2⟩

theorem memReadSsat_safe (ht : t.table = ⟨[]⟩) (hk : k ≤ 15) (hs : io.sectorSize = 2 ^ k)
    (hw : sat.WF) (hid : id < 2 ^ 32) :
    Safe (memReadSsat io dev sat t id count : Mem σ (MTable × Bool)) := by
  rw [memReadSsat_eq hk hs]
  refine fill_safe _ _ _ fun g hg => ?_
  have h := readSsat_match (dev := dev) (sat := sat) (count := count) (id := id) hk hs
  rw [ht] at hg
  rw [hg] at h
  obtain ⟨t', h', _⟩ := readSsat_ok (dev := dev) (count := count) hk hs hw hid
  dsimp only at h
  rw [h, h']
  trivial

theorem memReadSsat_computes (ht : t.table = ⟨[]⟩) (hk : k ≤ 15) (hs : io.sectorSize = 2 ^ k)
    (hw : sat.WF) (hid : id < 2 ^ 32) :
    Computes (memReadSsat io dev sat t id count : Mem σ (MTable × Bool))
      (fun s => ((readSsat io dev sat ⟨[]⟩ id count).res, s)) (fun r => r.1.table) := by
  obtain ⟨t', h', _⟩ := readSsat_ok (dev := dev) (count := count) hk hs hw hid
  rw [h', memReadSsat_eq hk hs]
  refine fill_computes _ _ _ _ ?_
  rw [ht, readSsat_match hk hs, h']

end Sat

end Lemmas
end Olecf
