import Verif.Lemmas.MemOpen
import Verif.Props.File

/-! The entries of the tree and of the list. -/

namespace Olecf
namespace Lemmas

open Olecf.Spec

variable {σ α β : Type}

theorem mem_pure_bind (a : α) (k : α → Mem σ β) : ((pure a : Mem σ α) >>= k) = k a := rfl

theorem memLookup_map (list : List MElem) (id : Nat) :
    (memLookup list id).map (·.entry) = dirLookup (entriesOf' list) id := by
  induction list with
  | nil => rfl
  | cons x rest ih =>
    unfold memLookup
    show _ = if x.value.entry.id = id then some x.value.entry else dirLookup (entriesOf' rest) id
    split
    · rfl
    · exact ih

theorem memFindRoot_map (list : List MElem) :
    (memFindRoot list).map (·.entry) = findRoot (entriesOf' list) := by
  induction list with
  | nil => rfl
  | cons x rest ih =>
    unfold memFindRoot
    show _ = if x.value.entry.type = typeRoot then some x.value.entry else findRoot (entriesOf' rest)
    split
    · rfl
    · exact ih

theorem memAttach_tracks (parent : Option NodeKey) (c : MEntry) (st : MTreeState) :
    Tracks (memAttach parent c st : Mem σ MTreeState) (attach parent c.entry st.state)
      (fun _ => true) (·.state) := by
  unfold memAttach
  refine tracks_quiet (quiet_use _) ?_
  split
  · rename_i h
    unfold attach
    rw [if_pos h]
    exact fails_tracks fails_fail
  · refine tracks_step (v := .ok ()) (w := fun _ => attach parent c.entry st.state) tracks_alloc
      fun n _ => ?_
    refine tracks_congr (tracks_step (w := fun s => .ok s)
      (tracks_onError (tracks_of _) (quiet_release _)) fun s _ => tracks_ret rfl rfl) ?_
    cases attach parent c.entry st.state <;> rfl

theorem link_tracks {parent : Option NodeKey} {c : MEntry} {st : MTreeState}
    {k : MTreeState → Mem σ (MTreeState × Bool)} {w : TreeState → Res TreeState}
    (hk : ∀ st, Tracks (k st) (w st.state) (·.2) (·.1.state)) :
    Tracks (do
      match ← (memAttach parent c st).attempt with
      | none => pure (st, false)
      | some st => k st : Mem σ (MTreeState × Bool))
      (attach parent c.entry st.state >>= w) (·.2) (·.1.state) :=
  tracks_try (memAttach_tracks parent c st) (fails_pure rfl) fun st _ => hk st

theorem memProcessEntry_tracks (list : List MElem) (cmp : Bytes → Bytes → Option Bool)
    (rootId : Nat) :
    ∀ (fuel : Nat) (node : NodeKey) (parent : Option NodeKey) (d : MEntry) (st : MTreeState),
      Tracks (memProcessEntry list cmp rootId fuel node parent d st : Mem σ (MTreeState × Bool))
        (processEntry (entriesOf' list) cmp rootId fuel node parent d.entry st.state)
        (·.2) (·.1.state) := by
  intro fuel
  induction fuel with
  | zero =>
    intro node parent d st s h
    exact ⟨rfl, rfl, rfl⟩
  | succ fuel ih =>
    intro node parent d st
    unfold memProcessEntry processEntry
    refine tracks_quiet (quiet_use _) ?_
    refine tracks_try (tracks_of _) (fails_pure rfl) fun _ _ => ?_
    have hno : ∀ {P : Prop}, (∀ a : MTreeState × Bool, a.2 = true) → P := fun h =>
      absurd (h (st, false)) (by simp)
    refine tracks_bind (flag := (·.2)) (view := (·.1.state)) ?_ (fun r1 hr1 _ => ?_)
      (fun r1 hr1 => ?_) hno
    · split
      · rw [← memLookup_map]
        cases memLookup list d.entry.sub with
        | none => exact tracks_ret rfl rfl
        | some c => exact link_tracks fun st => ih _ _ c st
      · exact tracks_ret rfl rfl
    · refine tracks_bind (flag := (·.2)) (view := (·.1.state)) ?_ (fun r2 hr2 _ => ?_)
        (fun r2 hr2 => ?_) hno
      · by_cases hp : d.entry.prev ≠ UNUSED
        · rw [if_pos ⟨hr1, hp⟩, if_pos hp, ← memLookup_map]
          cases memLookup list d.entry.prev with
          | none => exact tracks_ret hr1 rfl
          | some c => exact link_tracks fun st => ih _ _ c st
        · rw [if_neg (fun h => hp h.2), if_neg hp]
          exact tracks_ret hr1 rfl
      · by_cases hp : d.entry.next ≠ UNUSED
        · rw [if_pos ⟨hr2, hp⟩, if_pos hp, ← memLookup_map]
          cases memLookup list d.entry.next with
          | none => exact fails_tracks (fails_pure rfl)
          | some c => exact link_tracks fun st => ih _ _ c st
        · rw [if_neg (fun h => hp h.2), if_neg hp]
          exact tracks_ret hr2 rfl
      · rw [if_neg (by rw [hr2]; simp)]
        exact fails_pure hr2
    · rw [if_neg (by rw [hr1]; simp), mem_pure_bind, if_neg (by rw [hr1]; simp)]
      exact fails_pure hr1

/-! ### The nodes -/

/-- The nodes are those of the marked entries, which are entries of the list. -/
structure NodesOk (list : List MElem) (st : MTreeState) : Prop where
  marks : st.nodes.map (·.value.entry.id) = st.state.marks
  values : ∀ n ∈ st.nodes, ∃ x ∈ list, x.value = n.value

theorem memAttach_nodes {list : List MElem} {parent : Option NodeKey} {c : MEntry} {st : MTreeState}
    (hc : ∃ x ∈ list, x.value = c) (hst : NodesOk list st) :
    Ensures (memAttach parent c st : Mem σ MTreeState) (NodesOk list) := by
  unfold memAttach
  refine ensures_bind (ensures_true _) fun _ _ => ?_
  split
  · intro s h a ha; cases ha
  refine ensures_bind (ensures_true _) fun n _ => ?_
  refine ensures_bind (ensures_onError ensures_of) fun s hs => ensures_pure ?_
  have hm : s.marks = c.entry.id :: st.state.marks := by
    unfold attach at hs
    rw [if_neg (by assumption)] at hs
    cases parent with
    | none => cases hs
    | some p =>
      dsimp only at hs
      split at hs
      · cases hs
      · cases hs; rfl
  constructor
  · rw [List.map_cons, hst.marks, hm]
  · intro m hm'
    rcases List.mem_cons.1 hm' with rfl | hm'
    · exact hc
    · exact hst.values m hm'

theorem link_nodes {list : List MElem} {parent : Option NodeKey} {c : MEntry} {st : MTreeState}
    (hc : ∃ x ∈ list, x.value = c) (hst : NodesOk list st)
    {k : MTreeState → Mem σ (MTreeState × Bool)}
    (hk : ∀ st, NodesOk list st → Ensures (k st) (fun r => NodesOk list r.1)) :
    Ensures (do
      match ← (memAttach parent c st).attempt with
      | none => pure (st, false)
      | some st => k st : Mem σ (MTreeState × Bool)) (fun r => NodesOk list r.1) :=
  ensures_try (memAttach_nodes hc hst) (ensures_pure hst) hk

theorem memProcessEntry_nodes (list : List MElem) (cmp : Bytes → Bytes → Option Bool)
    (rootId : Nat) :
    ∀ (fuel : Nat) (node : NodeKey) (parent : Option NodeKey) (d : MEntry) (st : MTreeState),
      NodesOk list st →
      Ensures (memProcessEntry list cmp rootId fuel node parent d st : Mem σ (MTreeState × Bool))
        (fun r => NodesOk list r.1) := by
  intro fuel
  induction fuel with
  | zero => intro node parent d st _ s h a ha; cases ha
  | succ fuel ih =>
    intro node parent d st hst
    unfold memProcessEntry
    refine ensures_bind (ensures_true _) fun _ _ => ?_
    refine ensures_try (ensures_true _) (ensures_pure hst) fun _ _ => ?_
    refine ensures_bind (Q := fun r => NodesOk list r.1) ?_ fun r1 h1 => ?_
    · split
      · split
        · exact ensures_pure hst
        · exact link_nodes (memLookup_mem ‹_›) hst fun st hst => ih _ _ _ st hst
      · exact ensures_pure hst
    refine ensures_bind (Q := fun r => NodesOk list r.1) ?_ fun r2 h2 => ?_
    · split
      · split
        · exact ensures_pure h1
        · exact link_nodes (memLookup_mem ‹_›) h1 fun st hst => ih _ _ _ st hst
      · exact ensures_pure h1
    split
    · split
      · exact ensures_pure h2
      · exact link_nodes (memLookup_mem ‹_›) h2 fun st hst => ih _ _ _ st hst
    · exact ensures_pure h2

/-! ### Creating the tree -/

theorem quiet_freeNodesOnly (l : List MNode) : Quiet (freeNodesOnly l : Mem σ Unit) :=
  quiet_forEach (quiet_freeNode fun _ => quiet_pure) l

/-- The value of a tree. -/
def treeValue (t : MTreeOut) : Option (Tree × List Nat) :=
  t.tree.map fun x => (⟨x.root.value.entry, x.kids⟩, t.marks)

theorem memCreateTree_tracks (list : List MElem) (cmp : Bytes → Bytes → Option Bool) :
    Tracks (memCreateTree list cmp : Mem σ MTreeOut) (createTree (entriesOf' list) cmp).res
      (·.ok) treeValue := by
  unfold memCreateTree createTree
  cases list with
  | nil => exact tracks_ret rfl rfl
  | cons x rest =>
    show Tracks _ (match findRoot (entriesOf' (x :: rest)) with
      | none => (⟨none, .err⟩ : TreeOut)
      | some root =>
        if root.sub = UNUSED then ⟨none, .ok none⟩
        else
          match processEntry (entriesOf' (x :: rest)) cmp root.id ((entriesOf' (x :: rest)).length + 1)
              none none root ⟨[], fun _ => []⟩ with
          | .ok st => ⟨some root.start, .ok (some (⟨root, st.kids⟩, root.id :: st.marks))⟩
          | .err => ⟨some root.start, .err⟩
          | .ub => ⟨some root.start, .ub⟩
          | .hang => ⟨some root.start, .hang⟩).res _ _
    rw [← memFindRoot_map]
    cases memFindRoot (x :: rest) with
    | none => exact fails_tracks (fails_pure rfl)
    | some root =>
      dsimp only [Option.map_some]
      by_cases hu : root.entry.sub = UNUSED
      · rw [if_pos hu, if_pos hu]; exact tracks_ret rfl rfl
      · rw [if_neg hu, if_neg hu]
        have hlen : (entriesOf' (x :: rest)).length = (x :: rest).length := List.length_map _
        rw [hlen]
        refine tracks_congr (tracks_try (v := .ok ()) (w := fun _ =>
          processEntry (entriesOf' (x :: rest)) cmp root.entry.id ((x :: rest).length + 1) none none
            root.entry ⟨[], fun _ => []⟩ >>= fun st =>
            .ok (some (⟨root.entry, st.kids⟩, root.entry.id :: st.marks)))
          tracks_alloc (fails_pure rfl) fun n _ => ?_) ?_
        · refine tracks_bind (memProcessEntry_tracks _ cmp _ _ none none root
            ⟨⟨[], fun _ => []⟩, []⟩) (fun r hr _ => ?_) (fun r hr => ?_) ?_
          · rw [if_pos hr]; exact tracks_ret rfl rfl
          · rw [if_neg (by rw [hr]; simp)]
            exact fails_quiet (quiet_freeNodesOnly _) (fails_pure rfl)
          · intro h; exact absurd (h (⟨⟨[], fun _ => []⟩, []⟩, false)) (by simp)
        · show (processEntry _ _ _ _ _ _ _ _ >>= _) = _
          cases processEntry (entriesOf' (x :: rest)) cmp root.entry.id ((x :: rest).length + 1) none
            none root.entry ⟨[], fun _ => []⟩ <;> rfl

/-- What the tree builder leaves on success. -/
structure TreeMade (list : List MElem) (t : MTreeOut) : Prop where
  none_marks : t.ok = true → t.tree = none → t.marks = []
  marks : ∀ x, t.ok = true → t.tree = some x → x.all.map (·.value.entry.id) = t.marks
  values : ∀ x, t.tree = some x → ∀ n ∈ x.all, ∃ y ∈ list, y.value = n.value
  failed : t.ok = false → t.tree = none

theorem memCreateTree_made (list : List MElem) (cmp : Bytes → Bytes → Option Bool) :
    Ensures (memCreateTree list cmp : Mem σ MTreeOut) (TreeMade list) := by
  have hnil : ∀ b, TreeMade list ⟨none, none, [], b⟩ := fun b =>
    ⟨fun _ _ => rfl, fun _ _ h => (by cases h), fun _ h => (by cases h), fun _ => rfl⟩
  unfold memCreateTree
  split
  · exact ensures_pure (hnil _)
  split
  · exact ensures_pure (hnil _)
  rename_i root hroot
  split
  · exact ensures_pure (hnil _)
  refine ensures_try (ensures_true _) (ensures_pure (hnil _)) fun n _ => ?_
  refine ensures_bind (memProcessEntry_nodes _ cmp _ _ none none root ⟨⟨[], fun _ => []⟩, []⟩
    ⟨rfl, by simp⟩) fun r hr => ?_
  split
  · refine ensures_pure ⟨fun _ h => (by cases h), fun x _ h => ?_, fun x h m hm => ?_,
      fun h => (by cases h)⟩
    · cases h
      show root.entry.id :: _ = _
      rw [hr.marks]
    · cases h
      rcases List.mem_cons.1 hm with rfl | hm
      · exact memFindRoot_mem hroot
      · exact hr.values m hm
  · refine ensures_bind (ensures_true _) fun _ _ => ensures_pure
      ⟨fun h => (by cases h), fun _ h => (by cases h), fun _ h => (by cases h), fun _ => rfl⟩

end Lemmas
end Olecf
