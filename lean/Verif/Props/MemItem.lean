import Verif.Lemmas.MemInv
import Verif.Props.MemFile

/-
  C95: the memory of programs that hold items.
-/

namespace Olecf.Props
open Olecf Olecf.Spec Olecf.Lemmas

theorem newProgram_inv {f : MFile} (hf : FileOk f) (hc : f.handle = none) : ProgOk ⟨f, []⟩ :=
  ⟨hf, fun t ht => (by rw [hf.tree hc] at ht; cases ht), fileFit_none (hf.tree hc), fun _ h => (by cases h)⟩

theorem newRun_heap (cmp : Bytes → Bytes → Option Bool) (steps : List Step) (w : World) {h : Heap}
    (hs : Sound h) (hc : CarefulRun cmp steps w h) :
    Sound (newRun cmp steps w h).2.2 ∧
    ((newRun cmp steps w h).1 = .err ∧ (memNewFile w h).1 = .err ∧
        SameBlocks h (newRun cmp steps w h).2.2 ∨
      ∃ p as, (newRun cmp steps w h).1 = .ok (p, as) ∧ as.length = steps.length ∧
        (∃ f, (memNewFile w h).1 = .ok f) ∧
        Gained h (programBlocks p) (newRun cmp steps w h).2.2 ∧ ProgOk p) := by
  obtain ⟨h1, hg, hw, h3⟩ := newFile_heap w hs
  unfold newRun
  rw [mem_bind]
  unfold Mem.bind
  unfold CarefulRun at hc
  rcases h3 with ⟨h3, h4, -⟩ | ⟨f, h3, h4, h5, h6, -⟩
  · revert h1 hw h3 h4
    rcases memNewFile w h with ⟨r, w', h'⟩
    intro h1 hw h3 h4
    dsimp only at h1 hw h3 h4
    subst h3
    exact ⟨h1, .inl ⟨rfl, rfl, h4⟩⟩
  · revert h1 hw h3 h4 hc
    rcases memNewFile w h with ⟨r, w', h'⟩
    intro hc h1 hw h3 h4
    dsimp only at h1 hw h3 h4
    subst h3
    dsimp only
    obtain ⟨k1, -, r, k3, k4, k5, k6⟩ := runSteps_outcome cmp steps (newProgram_inv h5 h6)
      (rest := h.live) h1 (by
        show h'.live.Perm ((fileBlocks f ++ []) ++ h.live)
        rw [List.append_nil]; exact h4) (hc f w' h' rfl)
    exact ⟨k1, .inr ⟨r.1, r.2, k3, k5, ⟨f, rfl⟩, k6, k4⟩⟩

/-- C95: a program that follows the rule — items are used while the file is open, afterwards they are
  only freed — never frees a block twice and never uses one that is not in use, whatever the files
  contain, whichever calls of libbfio and requests for memory fail; every step returns.  At its end the
  blocks in use are those of the file object and one for each item that it did not free. -/
theorem C95_safe (cmp : Bytes → Bytes → Option Bool) (steps : List Step) (w : World) {h : Heap}
    (hs : Sound h) (hc : CarefulRun cmp steps w h) :
    Sound (newRun cmp steps w h).2.2 ∧ (newRun cmp steps w h).1.Defined ∧
    ((newRun cmp steps w h).1 = .err → SameBlocks h (newRun cmp steps w h).2.2) ∧
    ∀ p as, (newRun cmp steps w h).1 = .ok (p, as) → as.length = steps.length ∧
      Gained h (fileBlocks p.file ++ heldBlocks p.items) (newRun cmp steps w h).2.2 := by
  obtain ⟨h1, h2 | ⟨p, as, h2, h3, -, h4, -⟩⟩ := newRun_heap cmp steps w hs hc
  · refine ⟨h1, by rw [h2.1]; trivial, fun _ => h2.2.2, fun p as he => ?_⟩
    rw [h2.1] at he; cases he
  · refine ⟨h1, by rw [h2]; trivial, fun he => ?_, fun p' as' he => ?_⟩
    · rw [h2] at he; cases he
    · rw [h2] at he; cases he; exact ⟨h3, h4⟩

theorem held_forEach (l : List (Option Held)) :
    (l.flatMap Option.toList).flatMap (fun x => [x.item.block]) = heldBlocks l := by
  induction l with
  | nil => rfl
  | cons a l ih =>
    rw [List.flatMap_cons, List.flatMap_append, ih, held_cons]
    cases a <;> rfl

/-- C95: when such a program then frees the file object, open or not, and after that the items it
  still has, all memory it took is given back. -/
theorem C95_life (cmp : Bytes → Bytes → Option Bool) (steps : List Step) (flt : Faults) (w : World)
    {h : Heap} (hs : Sound h) (hc : CarefulRun cmp steps w h) :
    Sound (memProgram cmp steps flt w h).2.2 ∧ (memProgram cmp steps flt w h).1.Defined ∧
    SameBlocks h (memProgram cmp steps flt w h).2.2 := by
  unfold memProgram
  rw [mem_bind]
  unfold Mem.bind
  obtain ⟨h1, h2 | ⟨p, as, h2, -, -, h4, h5⟩⟩ := newRun_heap cmp steps w hs hc
  · obtain ⟨h2, -, h3⟩ := h2
    revert h1 h2 h3
    rcases newRun cmp steps w h with ⟨r, w', h'⟩
    intro h1 h2 h3
    dsimp only at h1 h2 h3
    subst h2
    exact ⟨h1, trivial, h3⟩
  · revert h1 h2 h4
    rcases newRun cmp steps w h with ⟨r, w', h'⟩
    intro h1 h2 h4
    dsimp only at h1 h2 h4
    subst h2
    dsimp only
    have hfree := memFreeFile_call flt p.file h5.ok (heldBlocks p.items)
    have key : Call (programBlocks p) (do
        let _ ← memFreeFile flt p.file
        Mem.forEach (fun x => memFreeItem x.item) (p.items.flatMap Option.toList)
        pure as : Mem World (List Reply)) (fun _ => []) (fun _ => True) := by
      refine call_bind hfree fun _ _ => ?_
      refine call_quiet (mid := []) (quiet_forEach (fun x : Held => memFreeItem_quiet x.item) _) ?_
        (call_pure (.refl _) trivial)
      have := triple_forEach (σ := World) (f := fun x : Held => memFreeItem x.item)
        (blocks := fun x => [x.item.block]) (exc := fun _ => False)
        (fun x fr => memFreeItem_triple x.item fr) (p.items.flatMap Option.toList) []
      rw [held_forEach, List.append_nil] at this
      exact this
    obtain ⟨k1, b, k2, k3⟩ := stage_outcome key.stage w' (rest := h.live) h1 h4
    exact ⟨k1, by rw [k2]; trivial, k3⟩

theorem careful_noItem (cmp : Bytes → Bytes → Option Bool) (steps : List Step) :
    ∀ p w h, (∀ k c, Step.item k c ∉ steps) → Careful cmp p steps w h := by
  induction steps with
  | nil => intro _ _ _ _; trivial
  | cons s steps ih =>
    intro p w h hn
    refine ⟨?_, ?_⟩
    · cases s with
      | item k c => exact absurd List.mem_cons_self (hn k c)
      | _ => trivial
    · rcases s.run cmp p w h with ⟨_ | _ | _ | _, _, _⟩
      · exact ih _ _ _ fun k c hm => hn k c (List.mem_cons_of_mem _ hm)
      · trivial
      · trivial
      · trivial

/-- All items are from after the last close. -/
def AllFresh (p : Program) : Prop := ∀ x, some x ∈ p.items → x.fresh = true

theorem allFresh_given {p : Program} (h : AllFresh p) (r : Res (Option MItem)) :
    AllFresh (p.given r).1 := by
  rcases r with (_ | it) | _ | _ | _
  · exact h
  · intro x hx
    rcases List.mem_append.1 hx with hx | hx
    · exact h x hx
    · cases List.mem_singleton.1 hx; rfl
  · exact h
  · exact h
  · exact h

theorem allFresh_set {p : Program} (h : AllFresh p) (k : Nat) {x : Option Held}
    (hx : ∀ y, x = some y → y.fresh = true) : AllFresh (p.set k x) := by
  intro y hy
  rcases List.mem_or_eq_of_mem_set hy with hm | hm
  · exact h y hm
  · exact hx y hm.symm

theorem step_fresh (cmp : Bytes → Bytes → Option Bool) {p : Program} (h : AllFresh p) {s : Step}
    (hs : ∀ flt, s ≠ .file (.close flt)) : Ensures (s.run cmp p) (fun r => AllFresh r.1) := by
  cases s with
  | file op =>
    refine ensures_bind (ensures_true _) fun r _ => ensures_pure fun y hy => ?_
    obtain ⟨o, ho, hoy⟩ := List.mem_map.1 hy
    cases o with
    | none => cases hoy
    | some x =>
      cases hoy
      cases op with
      | close flt => exact absurd rfl (hs flt)
      | _ => exact h x ho
  | root => exact ensures_bind (ensures_true _) fun r _ => ensures_pure (allFresh_given h r)
  | path t => exact ensures_bind (ensures_true _) fun r _ => ensures_pure (allFresh_given h r)
  | item k c =>
    unfold Step.run
    dsimp only
    split
    · rename_i x hk
      have hx := h x (List.mem_of_getElem? hk)
      cases c with
      | field g => exact ensures_bind (ensures_true _) fun r _ => ensures_pure h
      | name conv => exact ensures_bind (ensures_true _) fun r _ => ensures_pure h
      | count => exact ensures_bind (ensures_true _) fun r _ => ensures_pure h
      | sub index => exact ensures_bind (ensures_true _) fun r _ => ensures_pure (allFresh_given h r)
      | subByName t => exact ensures_bind (ensures_true _) fun r _ => ensures_pure (allFresh_given h r)
      | subByPath t => exact ensures_bind (ensures_true _) fun r _ => ensures_pure (allFresh_given h r)
      | read size =>
        exact ensures_bind (ensures_true _) fun r _ =>
          ensures_pure (allFresh_set h k fun y hy => by cases hy; exact hx)
      | seek offset whence =>
        exact ensures_bind (ensures_true _) fun r _ =>
          ensures_pure (allFresh_set h k fun y hy => by cases hy; exact hx)
      | position => exact ensures_bind (ensures_true _) fun r _ => ensures_pure h
    · exact ensures_pure h
  | free k =>
    unfold Step.run
    dsimp only
    split
    · exact ensures_bind (ensures_true _) fun r _ =>
        ensures_pure (allFresh_set h k fun y hy => by cases hy)
    · exact ensures_pure h

theorem runSteps_fresh (cmp : Bytes → Bytes → Option Bool) (steps : List Step) : ∀ p, AllFresh p →
    (∀ flt, Step.file (.close flt) ∉ steps) → Ensures (runSteps cmp p steps) (fun r => AllFresh r.1) := by
  induction steps with
  | nil => intro p hp _; exact ensures_pure hp
  | cons s steps ih =>
    intro p hp hn
    refine ensures_bind (step_fresh cmp hp fun flt h => hn flt (h ▸ List.mem_cons_self)) fun r hr => ?_
    exact ensures_bind (ih r.1 hr fun flt h => hn flt (List.mem_cons_of_mem _ h)) fun r' hr' =>
      ensures_pure hr'

theorem careful_closesLast (cmp : Bytes → Bytes → Option Bool) (steps : List Step) :
    ∀ p w h, AllFresh p → ClosesLast steps → Careful cmp p steps w h := by
  induction steps with
  | nil => intro _ _ _ _ _; trivial
  | cons s steps ih =>
    intro p w h hp hn
    by_cases hcl : ∃ flt, s = .file (.close flt)
    · obtain ⟨flt, rfl⟩ := hcl
      refine ⟨trivial, ?_⟩
      rcases (Step.file (.close flt)).run cmp p w h with ⟨_ | _ | _ | _, _, _⟩
      · exact careful_noItem cmp steps _ _ _ hn
      · trivial
      · trivial
      · trivial
    · have hn' : ClosesLast steps := by
        unfold ClosesLast at hn
        split at hn
        · trivial
        · rename_i heq; cases heq; exact absurd ⟨_, rfl⟩ hcl
        · rename_i heq; cases heq; exact hn
      have he := step_fresh cmp (p := p) hp (s := s) (fun flt h => hcl ⟨flt, h⟩) w h
      refine ⟨?_, ?_⟩
      · cases s with
        | item k c => exact fun x hx => hp x (List.mem_of_getElem? hx)
        | _ => trivial
      · revert he
        rcases s.run cmp p w h with ⟨_ | _ | _ | _, _, _⟩
        · exact fun he => ih _ _ _ (he _ rfl) hn'
        · exact fun _ => trivial
        · exact fun _ => trivial
        · exact fun _ => trivial

/-- C95: the rule is met by every program whose last use of an item comes before the file is closed,
  in particular by those that never close it, and leave that to the free of the object. -/
theorem C95_order (cmp : Bytes → Bytes → Option Bool) {steps : List Step} (hl : ClosesLast steps)
    (w : World) (h : Heap) : CarefulRun cmp steps w h := fun f w' h' _ =>
  careful_closesLast cmp steps ⟨f, []⟩ w' h' (fun _ h => by cases h) hl

/-- C95: with memory for every request a program that follows the rule gets the answers of the models of
  which C19, C20, C22 to C25 and C34 to C37 speak, in which there is no memory, and holds the file and
  the items of these. -/
theorem C95_same_answers (cmp : Bytes → Bytes → Option Bool) (steps : List Step) (w : World) {h : Heap}
    (hs : Sound h) (ha : Ample h) (hc : CarefulRun cmp steps w h) :
    ∃ p w' h', newRun cmp steps w h =
        (.ok (p, answers cmp ⟨⟨OleFile.new, w⟩, []⟩ steps), w', h') ∧
      programValue p w' = holdsAfter cmp ⟨⟨OleFile.new, w⟩, []⟩ steps := by
  obtain ⟨-, hg, hw, h3⟩ := newFile_heap w hs
  rcases h3 with ⟨-, -, h3⟩ | ⟨f, h3, -, h5, h6, hv⟩
  · exact absurd ha h3
  unfold newRun
  rw [mem_bind]
  unfold Mem.bind
  unfold CarefulRun at hc
  revert hg hw h3 hc
  rcases memNewFile w h with ⟨r, w', h'⟩
  intro hc hg hw h3
  dsimp only at hg hw h3
  subst h3 hw
  dsimp only
  obtain ⟨p', w'', h'', k, k'⟩ := runSteps_at cmp steps (newProgram_inv h5 h6) ((ample_congr hg).2 ha)
    (hc f w' h' rfl)
  have he : programValue ⟨f, []⟩ w' = ⟨⟨OleFile.new, w'⟩, []⟩ := by
    unfold programValue
    rw [hv]
    rfl
  rw [he] at k k'
  exact ⟨p', w'', h'', k, k'⟩

/-! ### The rule is needed -/

/-- The mark of a memory error stays. -/
def Keeps {σ α : Type} (m : Mem σ α) : Prop := ∀ s h, h.bad = true → (m s h).2.2.bad = true

/-- The program uses the block, and goes wrong when that is not in use. -/
def Dead {σ α : Type} (b : Nat) (m : Mem σ α) : Prop :=
  ∀ s h, b ∉ h.live → (m s h).2.2.bad = true

section
variable {σ α β : Type}

theorem keeps_pure (a : α) : Keeps (pure a : Mem σ α) := fun _ _ h => h

theorem keeps_bind {m : Mem σ α} {k : α → Mem σ β} (hm : Keeps m) (hk : ∀ a, Keeps (k a)) :
    Keeps (m >>= k) := by
  intro s h hb
  have h1 := hm s h hb
  rw [mem_bind]
  unfold Mem.bind
  revert h1
  rcases m s h with ⟨_ | _ | _ | _, s', h'⟩
  · exact fun h1 => hk _ _ _ h1
  · exact fun h1 => h1
  · exact fun h1 => h1
  · exact fun h1 => h1

theorem keeps_use (b : Nat) : Keeps (Mem.use b : Mem σ Unit) := by
  intro s h hb
  unfold Mem.use
  split
  · exact hb
  · rfl

theorem keeps_useOpt (b : Option Nat) : Keeps (Mem.useOpt b : Mem σ Unit) := by
  cases b with
  | none => exact keeps_pure ()
  | some b => exact keeps_use b

theorem keeps_attempt {m : Mem σ α} (hm : Keeps m) : Keeps m.attempt := by
  intro s h hb
  have h1 := hm s h hb
  unfold Mem.attempt
  revert h1
  rcases m s h with ⟨_ | _ | _ | _, s', h'⟩ <;> exact fun h1 => h1

theorem keeps_forEach {f : α → Mem σ Unit} (hf : ∀ a, Keeps (f a)) : ∀ l, Keeps (Mem.forEach f l)
  | [] => keeps_pure ()
  | a :: l => keeps_bind (hf a) fun _ => keeps_forEach hf l

theorem keeps_alloc : Keeps (Mem.alloc : Mem σ Nat) := by
  intro s h hb
  unfold Mem.alloc
  split <;> exact hb

theorem keeps_make (ptrs : MPtrs) (r : Res (Option MPos)) :
    Keeps (memMakeItem ptrs r : Mem σ (Res (Option MItem))) := by
  unfold memMakeItem
  split
  · refine keeps_bind (keeps_attempt ?_) fun o => by cases o <;> exact keeps_pure _
    exact keeps_bind keeps_alloc fun _ => keeps_bind (keeps_use _) fun _ => keeps_pure _
  all_goals exact keeps_pure _

theorem keeps_nameLoop (cmp : List α → Bytes → Option Bool) (name : List α) (t : MTree) :
    ∀ l, Keeps (memNameLoop cmp name t l : Mem σ (Res (Option MPos)))
  | [] => keeps_pure _
  | c :: rest => by
    unfold memNameLoop
    split
    · exact keeps_pure _
    · refine keeps_bind (keeps_use _) fun _ => keeps_bind (keeps_use _) fun _ =>
        keeps_bind (keeps_useOpt _) fun _ => ?_
      split
      · exact keeps_pure _
      · exact keeps_pure _
      · exact keeps_nameLoop cmp name t rest

theorem dead_self {b : Nat} {k : Unit → Mem σ β} (hk : Keeps (k ())) : Dead b (Mem.use b >>= k) := by
  intro s h hb
  rw [mem_bind]
  unfold Mem.bind Mem.use
  rw [if_neg hb]
  exact hk _ _ rfl

theorem dead_use {b c : Nat} {k : Unit → Mem σ β} (hk : Dead b (k ())) :
    Dead b (Mem.use c >>= k) := by
  intro s h hb
  rw [mem_bind]
  unfold Mem.bind Mem.use
  by_cases hc : c ∈ h.live
  · rw [if_pos hc]; exact hk _ _ hb
  · rw [if_neg hc]; exact hk _ _ hb

theorem dead_bind {b : Nat} {m : Mem σ α} {k : α → Mem σ β} (hm : Dead b m) (hk : ∀ a, Keeps (k a)) :
    Dead b (m >>= k) := by
  intro s h hb
  have h1 := hm s h hb
  rw [mem_bind]
  unfold Mem.bind
  revert h1
  rcases m s h with ⟨_ | _ | _ | _, s', h'⟩
  · exact fun h1 => hk _ _ _ h1
  · exact fun h1 => h1
  · exact fun h1 => h1
  · exact fun h1 => h1

end

/-- The block of the tree that a call on an item uses first. -/
def firstUse (it : MItem) : ItemCall → Nat
  | .count => it.pos.node.block
  | .sub _ => it.pos.node.block
  | .subByName _ => it.pos.node.block
  | _ => it.pos.node.value.block

theorem call_dead (p : Program) (k : Nat) (x : Held) (c : ItemCall) (hc : ∀ t, c ≠ .subByPath t) :
    Dead (firstUse x.item c) (c.run p k x) := by
  cases c with
  | field g => exact dead_bind (dead_use (dead_self (keeps_pure _))) fun _ => keeps_pure _
  | name conv =>
    exact dead_bind (dead_use (dead_self (keeps_bind (keeps_use _) fun _ =>
      keeps_bind (keeps_useOpt _) fun _ => keeps_pure _))) fun _ => keeps_pure _
  | count => exact dead_bind (dead_use (dead_self (keeps_pure _))) fun _ => keeps_pure _
  | sub index =>
    refine dead_bind (dead_use (dead_self ?_)) fun _ => keeps_pure _
    split
    · exact keeps_pure _
    split
    · exact keeps_pure _
    split
    · exact keeps_pure _
    · exact keeps_make _ _
  | subByName t =>
    exact dead_bind (dead_use (dead_use (dead_bind (dead_self (keeps_nameLoop _ _ _ _))
      fun _ => keeps_make _ _))) fun _ => keeps_pure _
  | subByPath t => exact absurd rfl (hc t)
  | read size =>
    refine dead_bind (dead_use (dead_self ?_)) fun _ => keeps_pure _
    have hu : ∀ t : MTable, Keeps (useTable t : Mem World Unit) := fun t =>
      keeps_bind (keeps_use _) fun _ => keeps_useOpt _
    refine keeps_bind (keeps_use _) fun _ => keeps_bind (keeps_use _) fun _ =>
      keeps_bind (keeps_useOpt _) fun _ => keeps_bind (keeps_forEach hu _) fun _ =>
      keeps_bind (keeps_forEach hu _) fun _ => ?_
    split
    · exact keeps_bind (fun _ _ h => h) fun _ => keeps_pure _
    · exact keeps_pure _
  | seek offset whence => exact dead_bind (dead_use (dead_self (keeps_pure _))) fun _ => keeps_pure _
  | position => exact dead_bind (dead_use (dead_self (keeps_pure _))) fun _ => keeps_pure _

/-- C95, why the rule is needed: after any program that follows it, closing the file and then calling a
  function on an item that it still holds uses memory that was freed, if only to read the size of the
  item.  (A look-up by path can fail before it reads anything, with an empty name in the path.) -/
theorem C95_use_after_close (cmp : Bytes → Bytes → Option Bool) (steps : List Step) (w : World)
    {h : Heap} (hs : Sound h) (hc : CarefulRun cmp steps w h) {p : Program} {as : List Reply}
    {w' : World} {h' : Heap} (hr : newRun cmp steps w h = (.ok (p, as), w', h')) {k : Nat} {x : Held}
    (hk : p.items[k]? = some (some x)) (hf : x.fresh = true) (flt : Faults) (c : ItemCall)
    (hp : ∀ t, c ≠ .subByPath t) :
    (runSteps cmp p [.file (.close flt), .item k c] w' h').2.2.bad = true := by
  obtain ⟨h1, h2⟩ := newRun_heap cmp steps w hs hc
  rw [hr] at h1 h2
  rcases h2 with ⟨h2, -, -⟩ | ⟨p', as', h2, -, -, h4, h5⟩
  · cases h2
  cases h2
  dsimp only at h1 h4
  have hi := h5.items x (List.mem_of_getElem? hk) hf
  have hc1 := memCloseFile_call flt p.file h5.ok (heldBlocks p.items)
  obtain ⟨k1, r, k2, k3⟩ := stage_outcome hc1.stage w' (rest := h.live) h1 h4
  have k4 := hc1.ensures _ _ _ k2
  have hdead : firstUse x.item c ∉ (memCloseFile flt p.file w' h').2.2.live := by
    intro hm
    have hm := k3.mem_iff.1 hm
    rw [closed_blocks k4.1.ok k4.2, k4.1.block, k4.1.ioBlock] at hm
    have hn := h4.nodup_iff.1 h1.nodup
    unfold programBlocks at hn
    have hin : firstUse x.item c ∈ treeBlocks p.file.tree := by
      rw [hi.tree]
      refine List.mem_flatMap.2 ⟨_, hi.node, ?_⟩
      cases c <;> simp [firstUse, nodeBlocks, entryBlocks]
    have hp1 : (fileBlocks p.file ++ heldBlocks p.items ++ h.live).Perm
        (contentBlocks p.file ++ ([p.file.block, p.file.ioBlock] ++ heldBlocks p.items ++ h.live)) := by
      unfold fileBlocks
      blocks
    exact (List.nodup_append.1 (hp1.nodup_iff.1 hn)).2.2 _
      (by unfold contentBlocks; exact List.mem_append_right _ hin) _ hm rfl
  have hstep : (Step.file (.close flt)).run cmp p w' h' =
      (.ok (⟨r.1, p.items.map (·.map (·.afterOp (.close flt)))⟩, .done r.2),
        (memCloseFile flt p.file w' h').2.1, (memCloseFile flt p.file w' h').2.2) := by
    show (memCloseFile flt p.file >>= fun r => (pure
      (⟨r.1, p.items.map (·.map (·.afterOp (.close flt)))⟩, Reply.done r.2) :
        Mem World (Program × Reply))) w' h' = _
    rw [mem_bind]
    unfold Mem.bind
    revert k2
    rcases memCloseFile flt p.file w' h' with ⟨o, w1, h1⟩
    intro k2
    dsimp only at k2
    subst k2
    rfl
  have hk' : (p.items.map (·.map (·.afterOp (.close flt))))[k]? =
      some (some (x.afterOp (.close flt))) := by
    rw [List.getElem?_map, hk]; rfl
  unfold runSteps
  rw [mem_bind]
  unfold Mem.bind
  rw [hstep]
  dsimp only
  have hd := call_dead ⟨r.1, p.items.map (·.map (·.afterOp (.close flt)))⟩ k (x.afterOp (.close flt)) c hp
  refine (?_ : Dead (firstUse x.item c) _) _ _ hdead
  refine dead_bind (dead_bind ?_ fun _ => keeps_bind (keeps_pure _) fun _ => keeps_pure _)
    fun _ => keeps_pure _
  unfold Step.run
  dsimp only
  rw [hk']
  exact hd

/-! ### Examples -/

/-- Opening the sample file, its root item, the number of items below it, closing, freeing the item. -/
def sampleSteps : List Step :=
  [.file (.openHandle 1 1 {}), .root, .item 0 .count, .item 0 (.field .type), .file (.close {}),
    .free 0]

theorem sampleSteps_last : ClosesLast sampleSteps := by
  unfold sampleSteps ClosesLast ClosesLast ClosesLast ClosesLast ClosesLast
  intro k c h
  simp at h

/-- The hypotheses of the theorems of C95, and the answers: there are three items below the root. -/
example (g : Nat → Bool) : Sound (emptyHeap g) ∧
    CarefulRun cmpNone sampleSteps sampleWorld (emptyHeap g) ∧
    ∃ it n, (n = 1 ∨ n = 5) ∧ (answers cmpNone ⟨⟨OleFile.new, sampleWorld⟩, []⟩ sampleSteps).take 4 =
      [.done true, .item (.ok (some it)), .number 3, .number n] := by
  refine ⟨⟨rfl, List.nodup_nil, fun _ h => by cases h⟩, C95_order cmpNone sampleSteps_last _ _, ?_⟩
  obtain ⟨h1, t, f, it, h2, h3, h4, h5⟩ := C47_document_shown (sample_holds .little) cmpNone
    (sample_comparable _) sampleState sampleState_reachable rfl (.user 1) rfl 1 rfl
  generalize hd : sampleDoc = d at h5
  cases h5 with
  | stream _ _ _ _ => cases hd
  | storage ht hn _ hp hl _ _ =>
    cases hd
    have hn3 : numberOfSubItems t it = 3 := by rw [hn, hl, hp.length_eq]; rfl
    have hrun : FileOp.run cmpNone ⟨OleFile.new, sampleWorld⟩ (.openHandle 1 1 {}) =
        openHandle cmpNone (.user 1) 1 {} sampleState := rfl
    refine ⟨it, it.entry.type, ht, ?_⟩
    unfold sampleSteps
    unfold answers answers answers answers
    have e1 : Step.answer cmpNone ⟨⟨OleFile.new, sampleWorld⟩, []⟩ (.file (.openHandle 1 1 {})) =
        (⟨(openHandle cmpNone (.user 1) 1 {} sampleState).2, []⟩, .done true) := by
      unfold Step.answer
      dsimp only
      rw [hrun, h1]
    rw [e1]
    generalize (openHandle cmpNone (.user 1) 1 {} sampleState).2 = st at h2
    have e2 : Step.answer cmpNone ⟨st, []⟩ .root = (⟨st, [some ⟨it, 0⟩]⟩, .item (.ok (some it))) := by
      unfold Step.answer
      dsimp only
      rw [h2, h4]
      rfl
    rw [e2]
    have e3 : Step.answer cmpNone ⟨st, [some ⟨it, 0⟩]⟩ (.item 0 .count) =
        (⟨st, [some ⟨it, 0⟩]⟩, .number 3) := by
      unfold Step.answer ItemCall.answer
      dsimp only [List.getElem?_cons_zero]
      rw [h2]
      dsimp only
      rw [hn3]
    rw [e3]
    rfl

/-- The rule is not met by a program that uses an item it got before the close: with the memory of the
  sample file all granted, such an item is in its hands. -/
example : ¬ ClosesLast [.root, .file (.close {}), .item 0 .count] := by
  intro h
  exact h 0 .count List.mem_cons_self

/-- The hypotheses of `C95_use_after_close`: a program that opened the sample file and asked for the root
  item holds it. -/
theorem sample_held : ∃ p as w' h' x, newRun cmpNone (sampleSteps.take 2) sampleWorld (emptyHeap fun _ => true) =
      (.ok (p, as), w', h') ∧ p.items[0]? = some (some x) ∧ x.fresh = true := by
  have hl : ClosesLast (sampleSteps.take 2) := trivial
  have hc := C95_order cmpNone hl sampleWorld (emptyHeap fun _ => true)
  obtain ⟨p, w', h', h1, h2⟩ := C95_same_answers cmpNone (sampleSteps.take 2) sampleWorld
    (h := emptyHeap fun _ => true) ⟨rfl, List.nodup_nil, fun _ h => by cases h⟩ (fun _ => rfl) hc
  have hi : ∃ it, (programValue p w').items = [some ⟨it, 0⟩] := by
    rw [h2]
    have ht := sample_opens_tree 1
    obtain ⟨t, ht⟩ := Option.isSome_iff_exists.1 ht
    unfold sampleSteps
    dsimp only [List.take, holdsAfter]
    have e1 : (Step.answer cmpNone ⟨⟨OleFile.new, sampleWorld⟩, []⟩ (.file (.openHandle 1 1 {}))).1 =
        ⟨(openHandle cmpNone (.user 1) 1 {} sampleState).2, []⟩ := rfl
    rw [e1]
    generalize (openHandle cmpNone (.user 1) 1 {} sampleState).2 = st at ht
    unfold Step.answer
    dsimp only
    rw [ht]
    exact ⟨_, rfl⟩
  obtain ⟨it, hi⟩ := hi
  have hg : (programValue p w').items[0]? = some (some ⟨it, 0⟩) := by rw [hi]; rfl
  rw [value_get] at hg
  cases hx : p.items[0]? with
  | none => rw [hx] at hg; cases hg
  | some o =>
    cases o with
    | none => rw [hx] at hg; cases hg
    | some x =>
      refine ⟨p, _, w', h', x, h1, hx, ?_⟩
      have hf : Ensures (newRun cmpNone (sampleSteps.take 2)) (fun r => AllFresh r.1) :=
        ensures_bind (ensures_true _) fun f _ =>
          runSteps_fresh cmpNone _ _ (fun _ h => by cases h) (by simp [sampleSteps])
      exact hf _ _ _ (by rw [h1]) x (List.mem_of_getElem? hx)

end Olecf.Props
