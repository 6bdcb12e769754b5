import Verif.Lemmas.MemSetItem
import Verif.Props.MemReply
import Verif.Props.MemSet
import Verif.Props.SetWrite

/-
  C98, C99, C100: programs that hold property sets of items, with failing allocations.
-/

namespace Olecf.Props
open Olecf Olecf.Spec Olecf.Lemmas

theorem newSet_inv {f : MFile} (hf : FileOk f) (hc : f.handle = none) : SetOk ⟨⟨f, []⟩, [], [], []⟩ :=
  ⟨newProgram_inv hf hc, fun _ _ h => (by cases h), fun _ _ h => (by cases h)⟩

theorem newSetRun_heap (cmp : Bytes → Bytes → Option Bool) (steps : List SetStep) (w : World) {h : Heap}
    (hs : Sound h) (hc : SetCarefulRun cmp steps w h) :
    Sound (newSetRun cmp steps w h).2.2 ∧ (newSetRun cmp steps w h).2.2.grant = h.grant ∧
    ((newSetRun cmp steps w h).1 = .err → SameBlocks h (newSetRun cmp steps w h).2.2) ∧
    ∀ p as, (newSetRun cmp steps w h).1 = .ok (p, as) → SetOk p ∧ as.length = steps.length ∧
      ∃ lost : List MSection, lost.length ≤ failedSets as ∧
        Gained h (setProgramBlocks p ++ lost.flatMap sectionBlocks) (newSetRun cmp steps w h).2.2 := by
  obtain ⟨h1, hg, hw, h3⟩ := newFile_heap w hs
  unfold newSetRun
  rw [mem_bind]
  unfold Mem.bind
  unfold SetCarefulRun at hc
  rcases h3 with ⟨h3, h4, -⟩ | ⟨f, h3, h4, h5, h6, -⟩
  · revert h1 hg h3 h4
    rcases memNewFile w h with ⟨r, w', h'⟩
    intro h1 hg h3 h4
    dsimp only at h1 hg h3 h4
    subst h3
    exact ⟨h1, hg, fun _ => h4, fun _ _ h => (by cases h)⟩
  · revert h1 hg h3 h4 hc
    rcases memNewFile w h with ⟨r, w', h'⟩
    intro hc h1 hg h3 h4
    dsimp only at h1 hg h3 h4
    subst h3
    dsimp only
    obtain ⟨k1, k2, k3, k4⟩ := runSetSteps_heap cmp steps (newSet_inv h5 h6) (rest := h.live) h1 (by
        show h'.live.Perm ((fileBlocks f ++ []) ++ [] ++ h.live)
        rw [List.append_nil, List.append_nil]; exact h4) (hc f w' h' rfl)
    refine ⟨k1, k2.trans hg, fun he => absurd he k3, fun p as he => ?_⟩
    obtain ⟨j1, j2, lost, j3, j4⟩ := k4 p as he
    refine ⟨j1, j2, lost, j3, ?_⟩
    unfold Gained
    rw [List.append_assoc]
    exact j4

/-- C98: a program that follows the rule — items are used while the file is open, sections and values of a
  property set until the set is freed — never frees a block twice and never uses one that is not in
  use, whatever the files contain, whichever calls of libbfio and requests for memory fail.  The sets may
  be used after the file was closed and after their item was freed.  At its end the blocks in use are
  those of the file object, one for each item, those of the sets it did not free, and those of lost
  sections: at most one for each set that could not be read. -/
theorem C98_safe (cmp : Bytes → Bytes → Option Bool) (steps : List SetStep) (w : World) {h : Heap}
    (hs : Sound h) (hc : SetCarefulRun cmp steps w h) :
    Sound (newSetRun cmp steps w h).2.2 ∧
    ((newSetRun cmp steps w h).1 = .err → SameBlocks h (newSetRun cmp steps w h).2.2) ∧
    ∀ p as, (newSetRun cmp steps w h).1 = .ok (p, as) → as.length = steps.length ∧
      ∃ lost : List MSection, lost.length ≤ failedSets as ∧
        Gained h (fileBlocks p.base.file ++ heldBlocks p.base.items ++ setsBlocks p.sets ++
          lost.flatMap sectionBlocks) (newSetRun cmp steps w h).2.2 := by
  obtain ⟨h1, -, h2, h3⟩ := newSetRun_heap cmp steps w hs hc
  refine ⟨h1, h2, fun p as he => ?_⟩
  obtain ⟨-, k1, k2⟩ := h3 p as he
  exact ⟨k1, k2⟩

theorem sets_forEach (l : List (Option MSet)) :
    (l.flatMap Option.toList).flatMap setBlocks = setsBlocks l := by
  induction l with
  | nil => rfl
  | cons a l ih =>
    rw [List.flatMap_cons, List.flatMap_append, ih]
    rfl

theorem freeAll_call (flt : Faults) {p : SetProgram} (hp : SetOk p) (as : List SetReply) :
    Call (setProgramBlocks p) (do
        let _ ← memFreeFile flt p.base.file
        Mem.forEach (fun x => memFreeItem x.item) (p.base.items.flatMap Option.toList)
        Mem.forEach memFreeSet (p.sets.flatMap Option.toList)
        pure as : Mem World (List SetReply)) (fun _ => []) (fun r => r = as) := by
  have hfree := memFreeFile_call flt p.base.file hp.base.ok (heldBlocks p.base.items ++ setsBlocks p.sets)
  unfold setProgramBlocks programBlocks
  rw [List.append_assoc]
  refine call_bind hfree fun _ _ => ?_
  refine call_quiet (mid := setsBlocks p.sets)
    (quiet_forEach (fun x : Held => memFreeItem_quiet x.item) _) ?_ ?_
  · have := triple_forEach (σ := World) (f := fun x : Held => memFreeItem x.item)
      (blocks := fun x => [x.item.block]) (exc := fun _ => False)
      (fun x fr => memFreeItem_triple x.item fr) (p.base.items.flatMap Option.toList)
      (setsBlocks p.sets)
    rw [held_forEach] at this
    exact this
  · refine call_quiet (mid := []) (quiet_forEach memFreeSet_quiet _) ?_ (call_pure (.refl _) rfl)
    have := triple_forEach (σ := World) (f := memFreeSet) (blocks := setBlocks)
      (exc := fun _ => False) (fun x fr => memFreeSet_triple x fr) (p.sets.flatMap Option.toList) []
    rw [sets_forEach, List.append_nil] at this
    exact this

/-- C98: when such a program then frees the file object, open or not, and after that the items and the
  sets it still has, all memory it took is given back but that of the lost sections; all of it if every
  set that it asked for could be read. -/
theorem C98_life (cmp : Bytes → Bytes → Option Bool) (steps : List SetStep) (flt : Faults) (w : World)
    {h : Heap} (hs : Sound h) (hc : SetCarefulRun cmp steps w h) :
    Sound (memSetProgram cmp steps flt w h).2.2 ∧
    ((memSetProgram cmp steps flt w h).1 = .err → SameBlocks h (memSetProgram cmp steps flt w h).2.2) ∧
    (∀ p as, (newSetRun cmp steps w h).1 = .ok (p, as) → (memSetProgram cmp steps flt w h).1 = .ok as) ∧
    ∀ as, (memSetProgram cmp steps flt w h).1 = .ok as →
      (∃ lost : List MSection, lost.length ≤ failedSets as ∧
        Gained h (lost.flatMap sectionBlocks) (memSetProgram cmp steps flt w h).2.2) ∧
      (failedSets as = 0 → SameBlocks h (memSetProgram cmp steps flt w h).2.2) := by
  unfold memSetProgram
  rw [mem_bind]
  unfold Mem.bind
  obtain ⟨h1, -, h2, h3⟩ := newSetRun_heap cmp steps w hs hc
  revert h1 h2 h3
  rcases newSetRun cmp steps w h with ⟨r, w', h'⟩
  intro h1 h2 h3
  dsimp only at h1 h2 h3
  cases r with
  | err => exact ⟨h1, fun _ => h2 rfl, fun _ _ he => (by cases he), fun _ he => (by cases he)⟩
  | ub => exact ⟨h1, fun he => (by cases he), fun _ _ he => (by cases he), fun _ he => (by cases he)⟩
  | hang => exact ⟨h1, fun he => (by cases he), fun _ _ he => (by cases he), fun _ he => (by cases he)⟩
  | ok r =>
    obtain ⟨p, as⟩ := r
    obtain ⟨hp, -, lost, hlen, hg⟩ := h3 p as rfl
    dsimp only
    have key := freeAll_call flt hp as
    unfold Gained at hg
    rw [List.append_assoc] at hg
    obtain ⟨k1, b, k2, k3⟩ := stage_outcome key.stage w' h1 hg
    refine ⟨k1, fun he => (by rw [k2] at he; cases he), fun _ as' he => ?_, fun as' he => ?_⟩
    · cases he
      rw [key.ensures w' h' b k2] at k2
      exact k2
    have hb : as' = as := key.ensures w' h' as' he
    subst hb
    refine ⟨⟨lost, hlen, k3⟩, fun h0 => ?_⟩
    have : lost = [] := List.eq_nil_of_length_eq_zero (by omega)
    subst this
    exact k3

/-! ### Programs that follow the rule -/

/-- The sets of all sections and values are not freed. -/
def AllAlive (p : SetProgram) : Prop :=
  (∀ i s, some (i, s) ∈ p.secs → p.Alive i) ∧ ∀ i v, some (i, v) ∈ p.values → p.Alive i

theorem alive_append {p : SetProgram} {i : Nat} (h : p.Alive i) (s : Option MSet) :
    ({ p with sets := p.sets ++ [s] } : SetProgram).Alive i := by
  obtain ⟨t, ht⟩ := h
  refine ⟨t, ?_⟩
  show (p.sets ++ [s])[i]? = _
  rw [List.getElem?_append_left (List.getElem?_eq_some_iff.1 ht).1, ht]

theorem allAlive_keepSec {p : SetProgram} (h : AllAlive p) {i : Nat} (hi : p.Alive i) (r : Res MSection) :
    AllAlive (p.keepSec i r).1 := by
  cases r with
  | ok s =>
    refine ⟨fun j x hx => ?_, h.2⟩
    rcases List.mem_append.1 hx with hx | hx
    · exact h.1 j x hx
    · cases List.mem_singleton.1 hx; exact hi
  | err => exact h
  | ub => exact h
  | hang => exact h

theorem allAlive_keepValue {p : SetProgram} (h : AllAlive p) {i : Nat} (hi : p.Alive i) (r : Res MValue) :
    AllAlive (p.keepValue i r).1 := by
  cases r with
  | ok s =>
    refine ⟨h.1, fun j x hx => ?_⟩
    rcases List.mem_append.1 hx with hx | hx
    · exact h.2 j x hx
    · cases List.mem_singleton.1 hx; exact hi
  | err => exact h
  | ub => exact h
  | hang => exact h

theorem allAlive_keepSet {p : SetProgram} (h : AllAlive p) (r : Option MSet) :
    AllAlive (p.keepSet r).1 := by
  cases r with
  | some s => exact ⟨fun i x hx => alive_append (h.1 i x hx) _, fun i x hx => alive_append (h.2 i x hx) _⟩
  | none => exact h

theorem step_alive (cmp : Bytes → Bytes → Option Bool) {p : SetProgram} (h : AllAlive p) {s : SetStep}
    (hs : ∀ i, s ≠ .freeSet i) : Ensures (s.run cmp p) (fun r => AllAlive r.1) := by
  cases s with
  | base s => exact ensures_bind (ensures_true _) fun r _ => ensures_pure h
  | getSet k =>
    unfold SetStep.run
    dsimp only
    split
    · rename_i x _
      exact ensures_bind (ensures_true _) fun r _ => ensures_pure (allAlive_keepSet
        (p := { p with base := p.base.set k (some ⟨r.1, x.fresh⟩) }) h r.2)
    · exact ensures_pure h
  | set i c =>
    unfold SetStep.run
    dsimp only
    split
    · rename_i t hi
      cases c with
      | classId size => exact ensures_bind (ensures_true _) fun r _ => ensures_pure h
      | count => exact ensures_bind (ensures_true _) fun r _ => ensures_pure h
      | sec index =>
        exact ensures_bind (ensures_true _) fun r _ => ensures_pure (allAlive_keepSec h ⟨t, hi⟩ r)
    · exact ensures_pure h
  | sec j c =>
    unfold SetStep.run
    dsimp only
    split
    · rename_i i x hj
      cases c with
      | classId size => exact ensures_bind (ensures_true _) fun r _ => ensures_pure h
      | count => exact ensures_bind (ensures_true _) fun r _ => ensures_pure h
      | property index =>
        exact ensures_bind (ensures_true _) fun r _ => ensures_pure
          (allAlive_keepValue h (h.1 i x (List.mem_of_getElem? hj)) r)
    · exact ensures_pure h
  | value j get =>
    unfold SetStep.run
    dsimp only
    split
    · exact ensures_bind (ensures_true _) fun r _ => ensures_pure h
    · exact ensures_pure h
  | freeSet i => exact absurd rfl (hs i)
  | freeSec j =>
    refine ensures_pure ⟨fun i x hx => ?_, h.2⟩
    rcases List.mem_or_eq_of_mem_set hx with hx | hx
    · exact h.1 i x hx
    · cases hx
  | freeValue j =>
    refine ensures_pure ⟨h.1, fun i x hx => ?_⟩
    rcases List.mem_or_eq_of_mem_set hx with hx | hx
    · exact h.2 i x hx
    · cases hx

theorem setStep_fresh (cmp : Bytes → Bytes → Option Bool) {p : SetProgram} (h : AllFresh p.base)
    {s : SetStep} (hs : ∀ flt, s ≠ .base (.file (.close flt))) :
    Ensures (s.run cmp p) (fun r => AllFresh r.1.base) := by
  have hk : ∀ i r, (p.keepSec i r).1.base = p.base := fun i r => by cases r <;> rfl
  have hv : ∀ i r, (p.keepValue i r).1.base = p.base := fun i r => by cases r <;> rfl
  cases s with
  | base s =>
    exact ensures_bind (step_fresh cmp h fun flt he => hs flt (by rw [he])) fun r hr => ensures_pure hr
  | getSet k =>
    unfold SetStep.run
    dsimp only
    split
    · rename_i x hx
      refine ensures_bind (ensures_true _) fun r _ => ensures_pure ?_
      have : AllFresh (p.base.set k (some ⟨r.1, x.fresh⟩)) := allFresh_set h k fun y hy => by
        cases hy; exact h x (List.mem_of_getElem? hx)
      cases r.2 <;> exact this
    · exact ensures_pure h
  | set i c =>
    unfold SetStep.run
    dsimp only
    split
    · cases c with
      | classId size => exact ensures_bind (ensures_true _) fun r _ => ensures_pure h
      | count => exact ensures_bind (ensures_true _) fun r _ => ensures_pure h
      | sec index => exact ensures_bind (ensures_true _) fun r _ => ensures_pure (by rw [hk]; exact h)
    · exact ensures_pure h
  | sec j c =>
    unfold SetStep.run
    dsimp only
    split
    · cases c with
      | classId size => exact ensures_bind (ensures_true _) fun r _ => ensures_pure h
      | count => exact ensures_bind (ensures_true _) fun r _ => ensures_pure h
      | property index => exact ensures_bind (ensures_true _) fun r _ => ensures_pure (by rw [hv]; exact h)
    · exact ensures_pure h
  | value j get =>
    unfold SetStep.run
    dsimp only
    split
    · exact ensures_bind (ensures_true _) fun r _ => ensures_pure h
    · exact ensures_pure h
  | freeSet i =>
    unfold SetStep.run
    dsimp only
    split
    · exact ensures_bind (ensures_true _) fun r _ => ensures_pure h
    · exact ensures_pure h
  | freeSec j => exact ensures_pure h
  | freeValue j => exact ensures_pure h

theorem careful_freesLast (cmp : Bytes → Bytes → Option Bool) (steps : List SetStep) :
    ∀ p w h, (AllFresh p.base ∨ (∀ k c, SetStep.base (.item k c) ∉ steps) ∧ ∀ k, SetStep.getSet k ∉ steps) →
      (AllAlive p ∨ (∀ j c, SetStep.sec j c ∉ steps) ∧ ∀ j get, SetStep.value j get ∉ steps) →
      FreesLast steps → SetCareful cmp p steps w h := by
  induction steps with
  | nil => intro _ _ _ _ _ _; trivial
  | cons s steps ih =>
    intro p w h hf ha hl
    have hl' : FreesLast steps := by
      unfold FreesLast at hl
      split at hl
      · trivial
      · rename_i heq; cases heq; exact hl.2.2
      · rename_i heq; cases heq; exact hl.2.2
      · rename_i heq; cases heq; exact hl
    refine ⟨?_, ?_⟩
    · cases s with
      | base t =>
        cases t with
        | item k c =>
          rcases hf with hf | ⟨hf, -⟩
          · exact fun x hx => hf x (List.mem_of_getElem? hx)
          · exact absurd List.mem_cons_self (hf k c)
        | _ => trivial
      | getSet k =>
        rcases hf with hf | ⟨-, hf⟩
        · exact fun x hx => hf x (List.mem_of_getElem? hx)
        · exact absurd List.mem_cons_self (hf k)
      | sec j c =>
        rcases ha with ha | ⟨ha, -⟩
        · exact fun i x hx => ha.1 i x (List.mem_of_getElem? hx)
        · exact absurd List.mem_cons_self (ha j c)
      | value j get =>
        rcases ha with ha | ⟨-, ha⟩
        · exact fun i x hx => ha.2 i x (List.mem_of_getElem? hx)
        · exact absurd List.mem_cons_self (ha j get)
      | _ => trivial
    · have hf' : (∀ r, (s.run cmp p w h).1 = .ok r → AllFresh r.1.base) ∨
          (∀ k c, SetStep.base (.item k c) ∉ steps) ∧ ∀ k, SetStep.getSet k ∉ steps := by
        by_cases hcl : ∃ flt, s = .base (.file (.close flt))
        · obtain ⟨flt, rfl⟩ := hcl
          exact .inr ⟨hl.1, hl.2.1⟩
        · rcases hf with hf | ⟨h1, h2⟩
          · exact .inl fun r hr => setStep_fresh cmp hf (fun flt he => hcl ⟨flt, he⟩) w h r hr
          · exact .inr ⟨fun k c hm => h1 k c (List.mem_cons_of_mem _ hm),
              fun k hm => h2 k (List.mem_cons_of_mem _ hm)⟩
      have ha' : (∀ r, (s.run cmp p w h).1 = .ok r → AllAlive r.1) ∨
          (∀ j c, SetStep.sec j c ∉ steps) ∧ ∀ j get, SetStep.value j get ∉ steps := by
        by_cases hcl : ∃ i, s = .freeSet i
        · obtain ⟨i, rfl⟩ := hcl
          exact .inr ⟨hl.1, hl.2.1⟩
        · rcases ha with ha | ⟨h1, h2⟩
          · exact .inl fun r hr => step_alive cmp ha (fun i he => hcl ⟨i, he⟩) w h r hr
          · exact .inr ⟨fun k c hm => h1 k c (List.mem_cons_of_mem _ hm),
              fun k c hm => h2 k c (List.mem_cons_of_mem _ hm)⟩
      revert hf' ha'
      rcases s.run cmp p w h with ⟨_ | _ | _ | _, _, _⟩
      · exact fun hf' ha' => ih _ _ _ (hf'.imp (fun h => h _ rfl) id) (ha'.imp (fun h => h _ rfl) id) hl'
      · exact fun _ _ => trivial
      · exact fun _ _ => trivial
      · exact fun _ _ => trivial

/-- C98: the rule is met by every program that uses no item after it closed the file, and no section or
  value after it freed a set. -/
theorem C98_order (cmp : Bytes → Bytes → Option Bool) {steps : List SetStep} (hl : FreesLast steps)
    (w : World) (h : Heap) : SetCarefulRun cmp steps w h := fun f w' h' _ =>
  careful_freesLast cmp steps ⟨⟨f, []⟩, [], [], []⟩ w' h' (.inl fun _ h => (by cases h))
    (.inl ⟨fun _ _ h => (by cases h), fun _ _ h => (by cases h)⟩) hl

/-! ### What such programs are told -/

/-- C98: with memory for every request, such a program gets the answers of the models of which C19, C20,
  C22 to C25, C34 to C41 and C53 speak, in which there is no memory, and holds the file, the items, the
  sets, the sections and the values of these.  It comes to its end if no reading of a set is undefined
  in these models (C53, C99_defined_partial). -/
theorem C98_same_answers (cmp : Bytes → Bytes → Option Bool) (steps : List SetStep) (w : World) {h : Heap}
    (hs : Sound h) (ha : Ample h) (hc : SetCarefulRun cmp steps w h) :
    (∀ p as w' h', newSetRun cmp steps w h = (.ok (p, as), w', h') →
      (setProgramValue p w', as) = setAnswers cmp ⟨⟨⟨OleFile.new, w⟩, []⟩, [], [], []⟩ steps) ∧
    (SetReply.set .ub ∉ (setAnswers cmp ⟨⟨⟨OleFile.new, w⟩, []⟩, [], [], []⟩ steps).2 →
      SetReply.set .hang ∉ (setAnswers cmp ⟨⟨⟨OleFile.new, w⟩, []⟩, [], [], []⟩ steps).2 →
      ∃ p as, (newSetRun cmp steps w h).1 = .ok (p, as)) := by
  obtain ⟨h1, hg, hw, h3⟩ := newFile_heap w hs
  rcases h3 with ⟨-, -, h3⟩ | ⟨f, h3, h4, h5, h6, hv⟩
  · exact absurd ha h3
  unfold newSetRun
  rw [mem_bind]
  unfold Mem.bind
  unfold SetCarefulRun at hc
  revert h1 hg hw h3 h4 hc
  rcases memNewFile w h with ⟨r, w1, hp1⟩
  intro hc h1 hg hw h3 h4
  dsimp only at h1 hg hw h3 h4
  subst h3 hw
  dsimp only
  have he : setProgramValue ⟨⟨f, []⟩, [], [], []⟩ w1 = ⟨⟨⟨OleFile.new, w1⟩, []⟩, [], [], []⟩ := by
    unfold setProgramValue programValue
    rw [hv]
    rfl
  rw [← he]
  have hl : List.Perm hp1.live (setProgramBlocks ⟨⟨f, []⟩, [], [], []⟩ ++ h.live) := by
    show List.Perm _ ((fileBlocks f ++ []) ++ [] ++ h.live)
    rw [List.append_nil, List.append_nil]; exact h4
  have hh := (ample_congr hg).2 ha
  have hc' := hc f _ _ rfl
  have hp := newSet_inv h5 h6
  constructor
  · intro p as w' h' hr
    have key := runSetSteps_at cmp steps hp h1 hl hh hc' p as (by rw [hr])
    rw [hr] at key
    exact key
  · intro hd hd'
    obtain ⟨r, hr⟩ := runSetSteps_returns cmp steps hp h1 hl hh hc' hd hd'
    exact ⟨r.1, r.2, hr⟩

theorem base_run (cmp : Bytes → Bytes → Option Bool) (t : Step) (p : SetProgram) (w : World) (h : Heap)
    {p' : SetProgram} {a : SetReply} (he : ((SetStep.base t).run cmp p w h).1 = .ok (p', a)) :
    ∃ r, (t.run cmp p.base w h).1 = .ok r ∧ p' = { p with base := r.1 } ∧ a = .base r.2 ∧
      ((SetStep.base t).run cmp p w h).2 = (t.run cmp p.base w h).2 := by
  have hrun : (SetStep.base t).run cmp p w h = (Step.run cmp p.base t >>= fun r =>
    (pure ({ p with base := r.1 }, SetReply.base r.2) : Mem World (SetProgram × SetReply))) w h := rfl
  rw [hrun] at he ⊢
  rw [mem_bind] at he ⊢
  unfold Mem.bind at he ⊢
  revert he
  rcases t.run cmp p.base w h with ⟨_ | _ | _ | _, w', h'⟩ <;> intro he
  · cases he; exact ⟨_, rfl, rfl, rfl, rfl⟩
  · cases he
  · cases he
  · cases he

/-- C99: after any program that follows the rule, whichever requests for memory were refused to it, a
  step that is not a call on the file object replies what the file, the items, the sets, the sections and
  the values that the program holds say, and changes what it holds in the same way; or it is a look-up
  that fails because the next request is refused, and changes nothing; or it is the request for a set
  that fails because a request was refused during it, and changes nothing but the position in the
  item. -/
theorem C99_honest (cmp : Bytes → Bytes → Option Bool) (steps : List SetStep) (w : World) {h : Heap}
    (hs : Sound h) (hc : SetCarefulRun cmp steps w h) {p : SetProgram} {as : List SetReply}
    {w' : World} {h' : Heap} (hr : newSetRun cmp steps w h = (.ok (p, as), w', h')) {s : SetStep}
    (ha : s.Allowed p) (hn : ∀ op, s ≠ .base (.file op)) {p' : SetProgram} {a : SetReply}
    (he : (s.run cmp p w' h').1 = .ok (p', a)) :
    (s.run cmp p w' h').2.1 = w' ∧
    ((setProgramValue p' w', a) = s.answer cmp (setProgramValue p w') ∨
      (p', a) = (p, .base (.item .err)) ∧ h'.grant h'.asked = false ∨
      ∃ k x off, s = .getSet k ∧ p.base.items[k]? = some (some x) ∧
        (p', a) = ({ p with base := p.base.set k (some ⟨{ x.item with offset := off }, x.fresh⟩) },
          .set .err) ∧
        RefusedIn h' (s.run cmp p w' h').2.2) := by
  obtain ⟨-, -, -, h3⟩ := newSetRun_heap cmp steps w hs hc
  rw [hr] at h3
  obtain ⟨hp, -⟩ := h3 p as rfl
  by_cases hb : ∃ t, s = .base t
  · obtain ⟨t, rfl⟩ := hb
    obtain ⟨h1, h2⟩ := step_honest cmp hp.base ha (fun op e => hn op (by rw [e])) w' h'
    obtain ⟨r, k1, rfl, rfl, k2⟩ := base_run cmp t p w' h' he
    refine ⟨by rw [k2]; exact h1, ?_⟩
    rcases h2 r k1 with ⟨e1, e2⟩ | ⟨e, hg⟩
    · left
      unfold SetStep.answer setProgramValue
      dsimp only
      rw [e1, e2]
    · cases e
      exact .inr (.inl ⟨rfl, hg⟩)
  by_cases hg : ∃ k, s = .getSet k
  · obtain ⟨k, rfl⟩ := hg
    unfold SetStep.answer
    dsimp only
    have hvg : (setProgramValue p w').base.items[k]? = p.base.items[k]?.map (·.map heldValue) := value_get
    rw [hvg]
    cases hk : p.base.items[k]? with
    | none =>
      have : (SetStep.getSet k).run cmp p = pure (p, .nothing) := by
        unfold SetStep.run; dsimp only; rw [hk]
      rw [this] at he ⊢
      cases he
      exact ⟨rfl, .inl rfl⟩
    | some o =>
      cases o with
      | none =>
        have : (SetStep.getSet k).run cmp p = pure (p, .nothing) := by
          unfold SetStep.run; dsimp only; rw [hk]
        rw [this] at he ⊢
        cases he
        exact ⟨rfl, .inl rfl⟩
      | some x =>
        obtain ⟨k1, k2, k3⟩ := getSet_honest cmp hp hk (ha x hk) w' h'
        rw [he] at k3
        dsimp only at k3
        refine ⟨k1, ?_⟩
        rcases k3 with k3 | ⟨off, rfl, rfl, hrf⟩
        · exact .inl k3
        · exact .inr (.inr ⟨k, x, off, rfl, hk, rfl, hrf⟩)
  · have hlook : SetStep.Looking s := by
      cases s with
      | base t => exact absurd ⟨t, rfl⟩ hb
      | getSet k => exact absurd ⟨k, rfl⟩ hg
      | _ => trivial
    obtain ⟨r, h'', k1, k2, k3, k4⟩ := look_at cmp p hlook w' h'
    rw [k1] at he ⊢
    cases he
    exact ⟨rfl, .inl k4⟩

theorem readSet_other {f : FileCtx} {d : DirEntry} {cur : Int} (h : d.type ≠ 2 ∨ cur < 0) :
    (readSet f d cur).1 = .err := by
  have : seekTo d 0 cur = (.err, cur) := by
    unfold seekTo streamSeek
    by_cases h1 : d.type ≠ typeStream
    · rw [if_pos h1]
    · rw [if_neg h1, if_pos (h.resolve_left (fun h2 => h1 h2))]
  unfold readSet
  show (Reader.bind _ _ _).1 = _
  unfold Reader.bind
  rw [this]

theorem getSet_defined {p : SetProgram} (hp : SetOk p) {k : Nat} {x : Held}
    (hk : p.base.items[k]? = some (some x)) (hf : x.fresh = true) (w : World)
    (hs : 4 ≤ p.base.file.io.shortSectorSize) :
    ((setProgramValue p w).getSet k (heldValue x)).2.Defined := by
  have hi := hp.base.items x (List.mem_of_getElem? hk) hf
  unfold PureSets.getSet
  generalize ho : ((setProgramValue p w).base.state.file.handle.bind fun h =>
      (setProgramValue p w).base.state.file.ctx ((setProgramValue p w).base.state.world.dev h)) = o
  cases o with
  | none => trivial
  | some f =>
    have key : (readSet f (heldValue x).item.entry (heldValue x).offset).1.Defined := by
      by_cases hother : (heldValue x).item.entry.type ≠ 2 ∨ (heldValue x).offset < 0
      · rw [readSet_other hother]; trivial
      · obtain ⟨hd, -, hctx⟩ := Option.bind_eq_some_iff.1 ho
        have hfit := hp.base.fit x.item.pos.tree
        have hctx' : (MFile.value p.base.file).ctx (w.dev hd) = some f := hctx
        unfold OleFile.ctx MFile.value at hctx'
        cases hsat : p.base.file.sat with
        | none => rw [hsat] at hctx'; cases hctx'
        | some sat =>
          cases hssat : p.base.file.ssat with
          | none => rw [hsat, hssat] at hctx'; cases hctx'
          | some ssat =>
            rw [hsat, hssat] at hctx'
            cases hctx'
            have hfit := hfit sat ssat hi.tree hsat hssat
            have hent := hfit.entries _ hi.node
            obtain ⟨n, hn⟩ : ∃ n : Nat, (heldValue x).offset = n :=
              ⟨(heldValue x).offset.toNat, by omega⟩
            rw [hn]
            refine (C53_defined (hfit.ctx _) ⟨hent, Classical.not_not.1 fun h => hother (.inl h), ?_⟩ n).1
            have h1 : x.item.pos.node.value.entry.size < 2 ^ 32 := hent.2
            have h2 := hfit.size
            show x.item.pos.node.value.entry.size ≤ _
            have h3 : 4 ≤ unitOf ⟨p.base.file.io, w.dev hd, sat.table, ssat.table⟩
                x.item.pos.node.value.entry := by
              unfold unitOf
              dsimp only
              split <;> omega
            omega
    dsimp only
    revert key
    rcases readSet f (heldValue x).item.entry (heldValue x).offset with ⟨_ | _ | _ | _, off⟩ <;>
      exact fun key => key

/-- C99: after any program that follows the rule, whichever requests for memory were refused to it, every
  step returns; a step on sets, sections and values has no undefined behaviour in its reply.  The request
  for a set needs short sectors of at least 4 bytes, as C50.  (The full claim has no such condition.) -/
theorem C99_defined_partial (cmp : Bytes → Bytes → Option Bool) (steps : List SetStep) (w : World)
    {h : Heap} (hs : Sound h) (hc : SetCarefulRun cmp steps w h) {p : SetProgram} {as : List SetReply}
    {w' : World} {h' : Heap} (hr : newSetRun cmp steps w h = (.ok (p, as), w', h')) {s : SetStep}
    (ha : s.Allowed p) (hm : ∀ k, s = .getSet k → 4 ≤ p.base.file.io.shortSectorSize)
    (hget : ∀ j get, s = .value j get → ∀ v, (get v).Defined) :
    ∃ p' a, (s.run cmp p w' h').1 = .ok (p', a) ∧ ((∀ t, s ≠ .base t) → a.Defined) := by
  obtain ⟨h1, -, -, h3⟩ := newSetRun_heap cmp steps w hs hc
  rw [hr] at h1 h3
  obtain ⟨hp, -, lost, -, hg⟩ := h3 p as rfl
  by_cases hg : ∃ k, s = .getSet k
  · obtain ⟨k, rfl⟩ := hg
    cases hk : p.base.items[k]? with
    | none =>
      have : (SetStep.getSet k).run cmp p = pure (p, .nothing) := by
        unfold SetStep.run; dsimp only; rw [hk]
      rw [this]
      exact ⟨_, _, rfl, fun _ => trivial⟩
    | some o =>
      cases o with
      | none =>
        have : (SetStep.getSet k).run cmp p = pure (p, .nothing) := by
          unfold SetStep.run; dsimp only; rw [hk]
        rw [this]
        exact ⟨_, _, rfl, fun _ => trivial⟩
      | some x =>
        have hd := getSet_defined hp hk (ha x hk) w' (hm k rfl)
        obtain ⟨-, -, k3⟩ := getSet_honest cmp hp hk (ha x hk) w' h'
        revert k3
        rcases (SetStep.getSet k).run cmp p w' h' with ⟨o, w2, h2⟩
        intro k3
        dsimp only at k3
        cases o with
        | ok r =>
          refine ⟨r.1, r.2, rfl, fun _ => ?_⟩
          rcases k3 with k3 | ⟨off, e, -⟩
          · rw [← k3] at hd; exact hd
          · rw [e]; trivial
        | err => exact k3.elim
        | ub => rw [k3] at hd; exact hd.elim
        | hang => rw [k3] at hd; exact hd.elim
  · have hcall := setStep_call cmp hp ha (fun k e => hg ⟨k, e⟩) []
    rw [List.append_nil] at hcall
    unfold Gained at *
    rename_i hgain
    rw [List.append_assoc] at hgain
    obtain ⟨-, r, k2, -⟩ := stage_outcome hcall.stage w' h1 hgain
    refine ⟨r.1, r.2, k2, fun hb => ?_⟩
    have hlook : SetStep.Looking s := by
      cases s with
      | base t => exact absurd rfl (hb t)
      | getSet k => exact absurd ⟨k, rfl⟩ hg
      | _ => trivial
    obtain ⟨r', h'', k1, -, -, k4⟩ := look_at cmp p hlook w' h'
    rw [k1] at k2
    cases k2
    have : r.2 = (s.answer cmp (setProgramValue p w')).2 := by rw [← k4]
    rw [this]
    have harr : ∀ {α : Type} (l : List α) (i : Int), (arrayGet l i).Defined := by
      intro α l i
      unfold arrayGet
      split
      · trivial
      · split <;> trivial
    have hcls : ∀ c n, (copyClassId c n).Defined := by
      intro c n
      unfold copyClassId
      split <;> trivial
    unfold SetStep.answer
    cases s with
    | base t => exact absurd rfl (hb t)
    | getSet k => exact absurd ⟨k, rfl⟩ hg
    | set i c =>
      dsimp only
      split
      · exact hcls _ _
      · trivial
      · rename_i t index _
        have hd := harr t.sections index
        unfold PropSet.section_
        revert hd
        cases arrayGet t.sections index <;> exact fun hd => hd
      · trivial
    | sec j c =>
      dsimp only
      split
      · exact hcls _ _
      · trivial
      · rename_i i t index _
        have hd := harr t.properties index
        unfold PropSection.property
        revert hd
        cases arrayGet t.properties index <;> exact fun hd => hd
      · trivial
    | value j get =>
      dsimp only
      split
      · exact hget j get rfl _
      · trivial
    | freeSet i =>
      dsimp only
      split <;> trivial
    | freeSec j => trivial
    | freeValue j => trivial

/-! ### A property set of a document -/

/-- The steps that look up a sub item of the item held at `k`, then a sub item of that one, and so on. -/
def downFrom (k : Nat) : List Nat → List SetStep
  | [] => []
  | i :: is => .base (.item k (.sub i)) :: downFrom (k + 1) is

/-- A program that opens a file by a handle of the application, gets the root item and goes down the sub
  items with these indices. -/
def findItem (h flags : Nat) (is : List Nat) : List SetStep :=
  .base (.file (.openHandle h flags {})) :: .base .root :: downFrom 0 is

/-- A program that then asks the last item for its property set. -/
def findSet (h flags : Nat) (is : List Nat) : List SetStep := findItem h flags is ++ [.getSet is.length]

theorem setAnswers_append (cmp : Bytes → Bytes → Option Bool) (a b : List SetStep) (p : PureSets) :
    setAnswers cmp p (a ++ b) = ((setAnswers cmp (setAnswers cmp p a).1 b).1,
      (setAnswers cmp p a).2 ++ (setAnswers cmp (setAnswers cmp p a).1 b).2) := by
  induction a generalizing p with
  | nil => rfl
  | cons s a ih =>
    simp only [List.cons_append, setAnswers, ih]

/-- The replies without a property set. -/
def NoSets (as : List SetReply) : Prop := ∀ r, SetReply.set r ∉ as

theorem downFrom_answers (cmp : Bytes → Bytes → Option Bool) {t : Tree} {st : FileState}
    (ht : st.file.tree = some t) (is : List Nat) : ∀ (root it : Item) (items : List (Option PureItem)),
    itemFrom t root is = some it →
    ∃ more as, setAnswers cmp ⟨⟨st, items ++ [some ⟨root, 0⟩]⟩, [], [], []⟩ (downFrom items.length is) =
        (⟨⟨st, more ++ [some ⟨it, 0⟩]⟩, [], [], []⟩, as) ∧ more.length = items.length + is.length ∧
      NoSets as := by
  induction is with
  | nil =>
    intro root it items h
    cases h
    exact ⟨items, [], rfl, rfl, fun _ h => by cases h⟩
  | cons i is ih =>
    intro root it items h
    unfold itemFrom at h
    split at h
    · rename_i c hc
      obtain ⟨more, as, h1, h2, h3⟩ := ih c it (items ++ [some ⟨root, 0⟩]) h
      rw [List.length_append, List.length_singleton] at h1 h2
      refine ⟨more, .base (.item (.ok (some c))) :: as, ?_, by rw [h2, List.length_cons]; omega, ?_⟩
      · unfold downFrom setAnswers
        have e : SetStep.answer cmp ⟨⟨st, items ++ [some ⟨root, 0⟩]⟩, [], [], []⟩
            (.base (.item items.length (.sub i))) =
            (⟨⟨st, items ++ [some ⟨root, 0⟩] ++ [some ⟨c, 0⟩]⟩, [], [], []⟩,
              .base (.item (.ok (some c)))) := by
          unfold SetStep.answer Step.answer
          dsimp only
          rw [List.getElem?_append_right (Nat.le_refl _), Nat.sub_self]
          dsimp only [List.getElem?_cons_zero]
          unfold ItemCall.answer
          dsimp only
          rw [ht]
          dsimp only
          rw [hc]
          rfl
        rw [e]
        dsimp only
        rw [h1]
      · intro r hm
        rcases List.mem_cons.1 hm with hm | hm
        · cases hm
        · exact h3 r hm
    · cases h

theorem findItem_freesLast (h flags : Nat) (is : List Nat) {rest : List SetStep} (hr : FreesLast rest) :
    FreesLast (findItem h flags is ++ rest) := by
  show FreesLast (downFrom 0 is ++ rest)
  generalize 0 = k
  induction is generalizing k with
  | nil => exact hr
  | cons i is ih => exact ih (k + 1)

/-- The program finds the item of every stream of the document. -/
theorem findItem_answers {content : Bytes} {names : List Bytes} {doc : Doc}
    (hf : FileHolds content names doc)
    (cmp : Bytes → Bytes → Option Bool) (hcmp : ∀ n ∈ names, Comparable cmp n)
    (w : World) (hw : Initial ⟨OleFile.new, w⟩)
    (h : Nat) (hdev : w.dev (.user h) = Dev.ofBytes content) (flags : Nat) (hfl : flags % 4 = 1)
    {path : List Bytes} {data : Bytes} (hd : DocAt doc path (.stream data)) :
    ∃ is st it more as f, setAnswers cmp ⟨⟨⟨OleFile.new, w⟩, []⟩, [], [], []⟩ (findItem h flags is) =
        (⟨⟨st, more ++ [some ⟨it, 0⟩]⟩, [], [], []⟩, as) ∧ more.length = is.length ∧ NoSets as ∧
      (st.file.handle.bind fun h => st.file.ctx (st.world.dev h)) = some f ∧ WellFormedCtx f ∧
      EntryFits it.entry ∧ it.entry.type = 2 ∧ it.entry.size = data.length ∧
      ∀ cur size : Nat, size ≤ 2 ^ 63 - 1 →
        (streamRead f it.entry cur size).1.res = .ok ((data.drop cur).take size) := by
  have hreach : Reachable cmp ⟨OleFile.new, w⟩ := ⟨_, [], hw, rfl⟩
  obtain ⟨hok, t, f, root, ht, hctx, hroot, hshow⟩ :=
    C47_document_shown hf cmp hcmp ⟨OleFile.new, w⟩ hreach rfl (.user h) hdev flags hfl
  cases hroot
  obtain ⟨it, hname, hit⟩ := docAt_named (g := id) hshow hd
  rw [List.map_id] at hname
  obtain ⟨f', list, m, hctx', _, hwf, _, _, _, _, _, _, hfits, hmem⟩ :=
    C52_opened_well_formed cmp (.user h) flags {} ⟨OleFile.new, w⟩ (reachable_inv hreach).closed hok t ht
  rw [hctx] at hctx'
  cases hctx'
  obtain ⟨is, his⟩ := named_itemAt hname
  have hhandle : (openHandle cmp (.user h) flags {} ⟨OleFile.new, w⟩).2.file.handle = some (.user h) := by
    rcases openHandle_spec (cmp := cmp) (h := .user h) (flags := flags) (flt := {})
      (reachable_inv hreach).closed with ⟨hc, h1⟩ | ⟨⟨a, b, c, d⟩, ⟨l, hl, h1⟩ | ⟨hno, h1⟩⟩
    · rw [h1] at hok; cases hok
    · rw [h1]; rfl
    · rw [h1] at ht; cases ht
  have hrun : FileOp.run cmp ⟨OleFile.new, w⟩ (.openHandle h flags {}) =
      openHandle cmp (.user h) flags {} ⟨OleFile.new, w⟩ := rfl
  have e1 : SetStep.answer cmp ⟨⟨⟨OleFile.new, w⟩, []⟩, [], [], []⟩
      (.base (.file (.openHandle h flags {}))) =
      (⟨⟨(openHandle cmp (.user h) flags {} ⟨OleFile.new, w⟩).2, []⟩, [], [], []⟩,
        .base (.done true)) := by
    unfold SetStep.answer Step.answer
    dsimp only
    rw [hrun, hok]
  generalize (openHandle cmp (.user h) flags {} ⟨OleFile.new, w⟩).2 = st at ht hctx hhandle e1
  have e2 : SetStep.answer cmp ⟨⟨st, []⟩, [], [], []⟩ (.base .root) =
      (⟨⟨st, [some ⟨⟨none, t.root⟩, 0⟩]⟩, [], [], []⟩, .base (.item (.ok (some ⟨none, t.root⟩)))) := by
    unfold SetStep.answer Step.answer
    dsimp only
    rw [ht]
    rfl
  obtain ⟨more, as, e3, e4, e5⟩ := downFrom_answers cmp ht is ⟨none, t.root⟩ it [] his
  rw [List.length_nil, Nat.zero_add] at e4
  have e3' : setAnswers cmp ⟨⟨st, [some ⟨⟨none, t.root⟩, 0⟩]⟩, [], [], []⟩ (downFrom 0 is) = _ := e3
  refine ⟨is, st, it, more,
    .base (.done true) :: .base (.item (.ok (some ⟨none, t.root⟩))) :: as, f, ?_, e4, ?_, ?_, hwf,
    (hfits _ (hmem is it his)).1, ?_⟩
  · unfold findItem setAnswers setAnswers
    rw [e1]
    dsimp only
    rw [e2]
    dsimp only
    rw [e3']
  · intro r hm
    rcases List.mem_cons.1 hm with hm | hm
    · cases hm
    rcases List.mem_cons.1 hm with hm | hm
    · cases hm
    exact e5 r hm
  · rw [hhandle]
    exact hctx
  · cases hit with
    | stream htype _ hsize hread => exact ⟨htype, hsize, hread⟩

theorem streamOk_of {f : FileCtx} (hwf : WellFormedCtx f) {d : DirEntry} (hfits : EntryFits d)
    (ht : d.type = 2) (hsz : d.size < 2 ^ 31) : StreamOk f d := by
  have hu : 0 < unitOf f d := by
    unfold unitOf
    split
    · exact hwf.short.1
    · exact hwf.ss.1
  refine ⟨hfits, ht, ?_⟩
  have := Nat.mul_le_mul_right 2147483647 hu
  omega

theorem getSet_answer (cmp : Bytes → Bytes → Option Bool) {st : FileState} {it : Item}
    {more : List (Option PureItem)} {f : FileCtx} {n : Nat} (hn : more.length = n)
    (hctx : (st.file.handle.bind fun h => st.file.ctx (st.world.dev h)) = some f) :
    SetStep.answer cmp ⟨⟨st, more ++ [some ⟨it, 0⟩]⟩, [], [], []⟩ (.getSet n) =
      (match (readSet f it.entry 0).1 with
        | .ok ps => (⟨⟨st, more ++ [some ⟨it, (readSet f it.entry 0).2⟩]⟩, [some ps], [], []⟩, .set (.ok ps))
        | e => (⟨⟨st, more ++ [some ⟨it, (readSet f it.entry 0).2⟩]⟩, [], [], []⟩, .set e)) := by
  subst hn
  unfold SetStep.answer
  dsimp only
  rw [List.getElem?_append_right (Nat.le_refl _), Nat.sub_self]
  dsimp only [List.getElem?_cons_zero]
  unfold PureSets.getSet
  dsimp only
  rw [hctx]
  dsimp only
  rw [List.set_append_right _ _ (Nat.le_refl _), Nat.sub_self]
  cases (readSet f it.entry 0).1 <;> rfl

theorem findSet_answers {content : Bytes} {names : List Bytes} {doc : Doc}
    (hf : FileHolds content names doc)
    (cmp : Bytes → Bytes → Option Bool) (hcmp : ∀ n ∈ names, Comparable cmp n)
    (w : World) (hw : Initial ⟨OleFile.new, w⟩)
    (h : Nat) (hdev : w.dev (.user h) = Dev.ofBytes content) (flags : Nat) (hfl : flags % 4 = 1)
    {path : List Bytes} {data : Bytes} {s : SetValue} (hd : DocAt doc path (.stream data))
    (hsz : data.length < 2 ^ 31) (hs : HoldsSet (bytesContent data) .little s)
    (hn : s.sections.length < 65536) :
    ∃ is base as ps, setAnswers cmp ⟨⟨⟨OleFile.new, w⟩, []⟩, [], [], []⟩ (findSet h flags is) =
        (⟨base, [some ps], [], []⟩, as ++ [.set (.ok ps)]) ∧ NoSets as ∧ seenSet ps = s := by
  obtain ⟨is, st, it, more, as, f, h1, h2, h3, h4, h5, h6, h7, h8, h9⟩ :=
    findItem_answers hf cmp hcmp w hw h hdev flags hfl hd
  obtain ⟨ps, q, hps, hseen⟩ := C38_from_stream_bytes_partial h5
    (streamOk_of h5 h6 h7 (by omega)) h8.symm (by omega) h9 hs hn 0
  refine ⟨is, ⟨st, more ++ [some ⟨it, q⟩]⟩, as, ps, ?_, h3, hseen⟩
  unfold findSet
  rw [setAnswers_append, h1]
  have e := getSet_answer cmp (it := it) h2 h4
  rw [show readSet f it.entry 0 = _ from hps] at e
  unfold setAnswers setAnswers
  dsimp only
  rw [e]

theorem failedSets_noSets {as : List SetReply} (h : NoSets as) (rest : List SetReply) :
    failedSets (as ++ rest) = failedSets rest := by
  induction as with
  | nil => rfl
  | cons a as ih =>
    have := ih fun r hm => h r (List.mem_cons_of_mem _ hm)
    cases a with
    | set r => exact absurd List.mem_cons_self (h r)
    | _ => exact this

/-- C100, from the bytes to the program: a document with a property set (little endian, less than 65536
  sections) in one of its streams.  There are indices such that the program that opens the file, goes
  down from the root item by them and asks for the property set gets the set of the document, and leaves
  no memory behind, if it is given memory for every request. -/
theorem C100_set_of_document {content : Bytes} {names : List Bytes} {doc : Doc}
    (hf : FileHolds content names doc)
    (cmp : Bytes → Bytes → Option Bool) (hcmp : ∀ n ∈ names, Comparable cmp n)
    (w : World) (hw : Initial ⟨OleFile.new, w⟩)
    (h : Nat) (hdev : w.dev (.user h) = Dev.ofBytes content) (flags : Nat) (hfl : flags % 4 = 1)
    {path : List Bytes} {data : Bytes} {s : SetValue} (hd : DocAt doc path (.stream data))
    (hsz : data.length < 2 ^ 31) (hs : HoldsSet (bytesContent data) .little s)
    (hn : s.sections.length < 65536) :
    ∃ is : List Nat, ∀ (heap : Heap) (flt : Faults), Sound heap → Ample heap →
      ∃ ps as, (memSetProgram cmp (findSet h flags is) flt w heap).1 = .ok (as ++ [.set (.ok ps)]) ∧
        seenSet ps = s ∧
        Sound (memSetProgram cmp (findSet h flags is) flt w heap).2.2 ∧
        SameBlocks heap (memSetProgram cmp (findSet h flags is) flt w heap).2.2 := by
  obtain ⟨is, base, as, ps, hans, hno, hseen⟩ := findSet_answers hf cmp hcmp w hw h hdev flags hfl hd hsz hs hn
  refine ⟨is, fun heap flt hsound hample => ?_⟩
  have hc := C98_order cmp (findItem_freesLast h flags is (rest := [.getSet is.length]) trivial) w heap
  obtain ⟨hsame, hret⟩ := C98_same_answers cmp _ w hsound hample hc
  have hnot : ∀ r, r ≠ .ok ps → SetReply.set r ∉
      (setAnswers cmp ⟨⟨⟨OleFile.new, w⟩, []⟩, [], [], []⟩ (findSet h flags is)).2 := by
    rw [hans]
    intro r hr hm
    rcases List.mem_append.1 hm with hm | hm
    · exact hno r hm
    · cases List.mem_singleton.1 hm; exact hr rfl
  obtain ⟨p, as', hrun⟩ := hret (hnot _ fun h => by cases h) (hnot _ fun h => by cases h)
  have hsame' := congrArg Prod.snd (hsame p as' _ _ (by rw [← hrun]))
  dsimp only at hsame'
  rw [show setAnswers cmp _ (findItem h flags is ++ [.getSet is.length]) = _ from hans] at hsame'
  dsimp only at hsame'
  subst hsame'
  obtain ⟨k1, -, k2, k3⟩ := C98_life cmp (findSet h flags is) flt w hsound hc
  have k4 := k2 _ _ hrun
  exact ⟨ps, as, k4, hseen, k1, (k3 _ k4).2 (failedSets_noSets hno _)⟩

/-! ### What is lost -/

/-- C98 is violated by every request for the set of a stream that has the header of a property set but
  cannot be read as one: with memory for every request, the blocks of a section are lost, which the
  program has no means to free. -/
theorem C98_leak_violated (cmp : Bytes → Bytes → Option Bool) (steps : List SetStep) (w : World)
    {h : Heap} (hs : Sound h) (hh : Ample h) (hc : SetCarefulRun cmp steps w h) {p : SetProgram}
    {as : List SetReply} {w' : World} {h' : Heap}
    (hr : newSetRun cmp steps w h = (.ok (p, as), w', h')) {k : Nat} {x : PureItem} {f : FileCtx}
    (ha : (SetStep.getSet k).Allowed p)
    (hx : (setProgramValue p w').base.items[k]? = some (some x))
    (hf : ((setProgramValue p w').base.state.file.handle.bind fun h =>
      (setProgramValue p w').base.state.file.ctx ((setProgramValue p w').base.state.world.dev h)) = some f)
    (hwf : WellFormedCtx f) (hst : StreamOk f x.item.entry) (hpos : 0 ≤ x.offset)
    (hm : HasMark f x.item.entry) (he : (readSet f x.item.entry x.offset).1 = .err) :
    ∃ p', ((SetStep.getSet k).run cmp p w' h').1 = .ok (p', .set .err) ∧
      setProgramBlocks p' = setProgramBlocks p ∧
      ∃ m : MSection, Gained h' (sectionBlocks m) ((SetStep.getSet k).run cmp p w' h').2.2 := by
  obtain ⟨h1, hgr, -, h3⟩ := newSetRun_heap cmp steps w hs hc
  rw [hr] at h1 h3 hgr
  obtain ⟨hp, -, lost, -, hg⟩ := h3 p as rfl
  dsimp only at h1 hgr
  have hvg : (setProgramValue p w').base.items[k]? = p.base.items[k]?.map (·.map heldValue) := value_get
  rw [hvg] at hx
  cases hk : p.base.items[k]? with
  | none => rw [hk] at hx; cases hx
  | some o =>
    cases o with
    | none => rw [hk] at hx; cases hx
    | some y =>
      rw [hk] at hx
      cases hx
      rw [ctx_eq hp (List.mem_of_getElem? hk) (ha y hk)] at hf
      obtain ⟨h2, g2, a2, b2, e2⟩ := getSet_run cmp hp hk (ha y hk) w' h'
      rw [hf] at e2
      dsimp only at e2
      obtain ⟨n, hn⟩ : ∃ n : Nat, y.item.offset = n := ⟨y.item.offset.toNat, by
        have : 0 ≤ y.item.offset := hpos
        omega⟩
      have hgl := hg
      unfold Gained at hgl
      rw [List.append_assoc] at hgl
      obtain ⟨s2, l2⟩ := b2 _ h1 hgl
      have he' : (readSet f y.item.pos.node.value.entry y.item.offset).1 = .err := he
      rw [hn] at he' e2
      obtain ⟨k1, m, k2⟩ := C92_failure_violated hwf (d := y.item.pos.node.value.entry) hst n s2
        (fun i => by rw [g2, hgr]; exact hh i) hm he'
      rw [e2]
      revert k1 k2
      rcases memGetSet f y.item.pos.node.value.entry n h2 with ⟨o, off, h4⟩
      intro k1 k2
      dsimp only at k1 k2
      subst k1
      refine ⟨_, rfl, getSet_blocks hk off, m, ?_⟩
      exact k2.trans ((l2.trans hgl.symm).append_left _)

theorem runSetSteps_snoc (cmp : Bytes → Bytes → Option Bool) (steps : List SetStep) (s : SetStep) :
    ∀ {p q : SetProgram} {as : List SetReply} {w w' : World} {h h' : Heap},
      runSetSteps cmp p steps w h = (.ok (q, as), w', h') →
      (SetCareful cmp p (steps ++ [s]) w h → s.Allowed q) ∧
      ∀ q' a, (s.run cmp q w' h').1 = .ok (q', a) →
        runSetSteps cmp p (steps ++ [s]) w h = (.ok (q', as ++ [a]), (s.run cmp q w' h').2) := by
  induction steps with
  | nil =>
    intro p q as w w' h h' hr
    cases hr
    refine ⟨fun hc => hc.1, fun q' a he => ?_⟩
    rw [List.nil_append]
    unfold runSetSteps
    rw [mem_bind]
    unfold Mem.bind
    revert he
    rcases s.run cmp p w h with ⟨o, w', h'⟩
    intro he
    cases he
    rfl
  | cons t steps ih =>
    intro p q as w w' h h' hr
    rw [List.cons_append]
    unfold SetCareful runSetSteps
    unfold runSetSteps at hr
    rw [mem_bind] at hr ⊢
    unfold Mem.bind at hr ⊢
    revert hr
    rcases t.run cmp p w h with ⟨_ | _ | _ | _, w1, h1⟩ <;> intro hr <;> dsimp only at hr ⊢
    · rename_i r
      rw [mem_bind] at hr ⊢
      unfold Mem.bind at hr ⊢
      have ih := @ih r.1
      revert hr ih
      rcases hr1 : runSetSteps cmp r.1 steps w1 h1 with ⟨_ | _ | _ | _, w2, h2⟩ <;> intro hr ih <;>
        dsimp only at hr
      · rename_i r2
        cases hr
        obtain ⟨i1, i2⟩ := ih hr1
        refine ⟨fun hc => i1 hc.2, fun q' a he => ?_⟩
        rw [i2 q' a he]
        rfl
      · cases hr
      · cases hr
      · cases hr
    · cases hr
    · cases hr
    · cases hr

theorem newSetRun_snoc (cmp : Bytes → Bytes → Option Bool) (steps : List SetStep) (s : SetStep)
    {q : SetProgram} {as : List SetReply} {w w' : World} {h h' : Heap}
    (hr : newSetRun cmp steps w h = (.ok (q, as), w', h')) :
    (SetCarefulRun cmp (steps ++ [s]) w h → s.Allowed q) ∧
    ∀ q' a, (s.run cmp q w' h').1 = .ok (q', a) →
      newSetRun cmp (steps ++ [s]) w h = (.ok (q', as ++ [a]), (s.run cmp q w' h').2) := by
  unfold newSetRun SetCarefulRun at *
  rw [mem_bind] at hr ⊢
  unfold Mem.bind at hr ⊢
  revert hr
  rcases memNewFile w h with ⟨_ | _ | _ | _, w1, h1⟩ <;> intro hr <;> dsimp only at hr ⊢
  · obtain ⟨i1, i2⟩ := runSetSteps_snoc cmp steps s hr
    exact ⟨fun hc => i1 (hc _ _ _ rfl), i2⟩
  · cases hr
  · cases hr
  · cases hr

/-- The bytes of a property set that ends after its header, which says that there is one section. -/
def truncatedSet : Bytes := [0xfe, 0xff] ++ List.replicate 22 0 ++ [1, 0, 0, 0]

theorem truncated_err {f : FileCtx} (hwf : WellFormedCtx f) {d : DirEntry} (hd : StreamOk f d)
    (hread : ∀ cur size : Nat, size ≤ 2 ^ 63 - 1 →
      (streamRead f d cur size).1.res = .ok ((truncatedSet.drop cur).take size)) :
    HasMark f d ∧ (readSet f d 0).1 = .err := by
  have hseek : ∀ (pos cur : Nat), pos < 2 ^ 32 → seekTo d (pos : Int) (cur : Int) = (.ok (), (pos : Int)) :=
    fun pos cur hp => (seekTo_ok hd.isStream pos cur (by omega)).2 rfl
  have h28 : streamContent f d 0 28 = some truncatedSet := by
    unfold streamContent
    rw [hread 0 28 (by omega)]
    rfl
  have h20 : streamContent f d 28 20 = none := by
    unfold streamContent
    rw [hread 28 20 (by omega)]
    rfl
  refine ⟨⟨_, h28, .inl rfl⟩, ?_⟩
  have e1 : readExactly f d 28 ((0 : Nat) : Int) = (.ok truncatedSet, ((28 : Nat) : Int)) :=
    (readExactly_ok hwf hd 0 28).2 ⟨h28, rfl⟩
  have e2 : ∃ c, readExactly f d 20 ((28 : Nat) : Int) = (.err, c) := by
    have hdef := readExactly_defined hwf hd 28 20 (by omega)
    have hok := fun b c => readExactly_ok hwf hd 28 20 (b := b) (c := c)
    revert hdef hok
    rcases readExactly f d 20 ((28 : Nat) : Int) with ⟨_ | _ | _ | _, c⟩
    · intro _ hok
      have := ((hok _ _).1 rfl).1
      rw [h20] at this
      cases this
    · exact fun _ _ => ⟨c, rfl⟩
    · exact fun h => h.elim
    · exact fun h => h.elim
  obtain ⟨c, e2⟩ := e2
  have e3 : readSetHeader truncatedSet = .ok (.little, List.replicate 16 0, 1) := by decide +kernel
  have e4 : readSectionEntry f d .little ((28 : Nat) : Int) = (.err, c) := by
    unfold readSectionEntry
    show Reader.bind (readExactly f d 20) _ _ = _
    unfold Reader.bind
    rw [e2]
  have e5 : sectionsLoop f d .little 1 28 ((28 : Nat) : Int) = (.err, c) := by
    unfold sectionsLoop
    show Reader.bind (seekTo d ((28 : Nat) : Int)) _ _ = _
    unfold Reader.bind
    rw [hseek 28 28 (by omega)]
    dsimp only
    show Reader.bind (readSectionEntry f d .little) _ _ = _
    unfold Reader.bind
    rw [e4]
  unfold readSet
  show (Reader.bind (seekTo d ((0 : Nat) : Int)) _ ((0 : Nat) : Int)).1 = _
  unfold Reader.bind
  rw [hseek 0 0 (by omega)]
  dsimp only
  show (Reader.bind (readExactly f d 28) _ _).1 = _
  unfold Reader.bind
  rw [e1]
  dsimp only
  show (Reader.bind (Reader.of (readSetHeader truncatedSet)) _ _).1 = _
  unfold Reader.bind Reader.of
  rw [e3]
  dsimp only
  show (Reader.bind (sectionsLoop f d .little 1 28) _ _).1 = _
  unfold Reader.bind
  rw [e5]

/-- C98 is violated by every document with such a stream: there are indices such that the program that
  opens the file, goes down from the root item by them, asks for the property set, and frees everything it
  has, leaves the blocks of a section behind though it was given memory for every request. -/
theorem C98_document_leak_violated {content : Bytes} {names : List Bytes} {doc : Doc}
    (hf : FileHolds content names doc)
    (cmp : Bytes → Bytes → Option Bool) (hcmp : ∀ n ∈ names, Comparable cmp n)
    (w : World) (hw : Initial ⟨OleFile.new, w⟩)
    (h : Nat) (hdev : w.dev (.user h) = Dev.ofBytes content) (flags : Nat) (hfl : flags % 4 = 1)
    {path : List Bytes} (hd : DocAt doc path (.stream truncatedSet)) :
    ∃ is : List Nat, ∀ (heap : Heap) (flt : Faults), Sound heap → Ample heap →
      (∃ as, (memSetProgram cmp (findSet h flags is) flt w heap).1 = .ok (as ++ [.set .err])) ∧
      ∃ m : MSection, Gained heap (sectionBlocks m) (memSetProgram cmp (findSet h flags is) flt w heap).2.2 := by
  obtain ⟨is, st, it, more, as, f, h1, h2, h3, h4, h5, h6, h7, h8, h9⟩ :=
    findItem_answers hf cmp hcmp w hw h hdev flags hfl hd
  have hst := streamOk_of h5 h6 h7 (by rw [h8]; decide)
  obtain ⟨hm, he⟩ := truncated_err h5 hst h9
  refine ⟨is, fun heap flt hsound hample => ?_⟩
  have hlast := findItem_freesLast h flags is (rest := []) trivial
  rw [List.append_nil] at hlast
  have hc := C98_order cmp hlast w heap
  obtain ⟨hsame, hret⟩ := C98_same_answers cmp _ w hsound hample hc
  obtain ⟨p, as', hrun⟩ := hret (by rw [h1]; exact h3 _) (by rw [h1]; exact h3 _)
  obtain ⟨k1, -, -, k2⟩ := newSetRun_heap cmp _ w hsound hc
  obtain ⟨hp, -, lost, hlen, hg⟩ := k2 p as' hrun
  have hrun' : newSetRun cmp (findItem h flags is) w heap = (.ok (p, as'),
      (newSetRun cmp (findItem h flags is) w heap).2) := by rw [← hrun]
  generalize (newSetRun cmp (findItem h flags is) w heap).2 = x at hrun' k1 hg
  obtain ⟨w', h'⟩ := x
  have hsv := hsame p as' w' h' hrun'
  rw [h1] at hsv
  have hpv : setProgramValue p w' = ⟨⟨st, more ++ [some ⟨it, 0⟩]⟩, [], [], []⟩ := congrArg Prod.fst hsv
  have has : as' = as := congrArg Prod.snd hsv
  subst has
  have hitem : (setProgramValue p w').base.items[is.length]? = some (some ⟨it, 0⟩) := by
    rw [hpv, ← h2]
    exact List.getElem?_concat_length
  obtain ⟨hal, hnext⟩ := newSetRun_snoc cmp _ (.getSet is.length) hrun'
  have hal := hal (C98_order cmp (findItem_freesLast h flags is (rest := [.getSet is.length]) trivial) w heap)
  obtain ⟨p', j1, j2, m, j3⟩ := C98_leak_violated cmp _ w hsound hample hc hrun' (k := is.length)
    (x := ⟨it, 0⟩) (f := f) hal hitem (by rw [hpv]; exact h4) h5 hst (Int.le_refl 0) hm he
  have hnext := hnext p' _ j1
  have hnil : lost = [] := by
    have := failedSets_noSets h3 []
    rw [List.append_nil] at this
    exact List.eq_nil_of_length_eq_zero (by rw [this] at hlen; exact Nat.le_zero.1 hlen)
  subst hnil
  obtain ⟨g1, -, -, g2⟩ := setStep_heap cmp hp hal w' k1 (by
    unfold Gained at hg
    rw [List.append_assoc] at hg
    exact hg)
  obtain ⟨hp', -⟩ := g2 p' _ j1
  have hlive : ((SetStep.getSet is.length).run cmp p w' h').2.2.live.Perm
      (setProgramBlocks p' ++ (sectionBlocks m ++ heap.live)) := by
    unfold Gained at j3 hg
    rw [j2]
    refine j3.trans ((hg.append_left _).trans ?_)
    rw [List.flatMap_nil, List.append_nil]
    blocks
  obtain ⟨f1, b, f2, f3⟩ := stage_outcome (freeAll_call flt hp' (as' ++ [.set .err])).stage
    ((SetStep.getSet is.length).run cmp p w' h').2.1 g1 hlive
  have hb := (freeAll_call flt hp' (as' ++ [.set .err])).ensures
    ((SetStep.getSet is.length).run cmp p w' h').2.1 ((SetStep.getSet is.length).run cmp p w' h').2.2 b f2
  unfold memSetProgram
  rw [mem_bind]
  unfold Mem.bind findSet
  rw [hnext]
  subst hb
  exact ⟨⟨as', f2⟩, m, f3⟩

/-! ### The rule is needed -/

theorem free_block {p : SetProgram} {i : Nat} {t : MSet}
    (hi : p.sets[i]? = some (some t)) {w : World} {h : Heap} {rest : List Nat} (hs : Sound h)
    (hl : h.live.Perm (setProgramBlocks p ++ rest)) {b : Nat} (hb : b ∈ setBlocks t) :
    b ∉ (memFreeSet t w h).2.2.live := by
  have hperm : (setProgramBlocks p ++ rest).Perm
      (setBlocks t ++ (programBlocks p.base ++ setsBlocks (p.sets.set i none) ++ rest)) := by
    unfold setProgramBlocks
    refine (((sets_set_none hi).append_left _).append_right rest).trans ?_
    blocks
  obtain ⟨-, -, k3, -⟩ := memFreeSet_triple t
    (programBlocks p.base ++ setsBlocks (p.sets.set i none) ++ rest) w h [] hs
    (by rw [List.append_nil]; exact hl.trans hperm)
  have k4 := k3 () (memFreeSet_quiet t w h).1
  rw [List.append_nil] at k4
  intro hm
  have hm := k4.mem_iff.1 hm
  exact (List.nodup_append.1 ((hl.trans hperm).nodup_iff.1 hs.nodup)).2.2 b hb b hm rfl

theorem freeSet_run (cmp : Bytes → Bytes → Option Bool) {p : SetProgram} {i : Nat} {t : MSet}
    (hi : p.sets[i]? = some (some t)) (w : World) (h : Heap) :
    (SetStep.freeSet i).run cmp p w h =
      (.ok ({ p with sets := p.sets.set i none }, .done), w, (memFreeSet t w h).2.2) := by
  obtain ⟨e1, e2, -⟩ := memFreeSet_quiet t w h
  unfold SetStep.run
  dsimp only
  rw [hi]
  dsimp only
  rw [mem_bind]
  unfold Mem.bind
  revert e1 e2
  rcases memFreeSet t w h with ⟨r, w', h'⟩
  intro e1 e2
  dsimp only at e1 e2
  subst e1 e2
  rfl

/-- C98, why the rule is needed: after any program that follows it, freeing a set and then calling a
  function on a section or a value of it that the program still holds uses memory that was freed. -/
theorem C98_use_after_free (cmp : Bytes → Bytes → Option Bool) (steps : List SetStep) (w : World)
    {h : Heap} (hs : Sound h) (hc : SetCarefulRun cmp steps w h) {p : SetProgram} {as : List SetReply}
    {w' : World} {h' : Heap} (hr : newSetRun cmp steps w h = (.ok (p, as), w', h')) {i : Nat}
    (hi : p.Alive i) :
    (∀ j x c, p.secs[j]? = some (some (i, x)) →
      (runSetSteps cmp p [.freeSet i, .sec j c] w' h').2.2.bad = true) ∧
    ∀ j v get, p.values[j]? = some (some (i, v)) →
      (runSetSteps cmp p [.freeSet i, .value j get] w' h').2.2.bad = true := by
  obtain ⟨h1, -, -, h3⟩ := newSetRun_heap cmp steps w hs hc
  rw [hr] at h1 h3
  obtain ⟨hp, -, lost, -, hg⟩ := h3 p as rfl
  obtain ⟨t, hi⟩ := hi
  unfold Gained at hg
  rw [List.append_assoc] at hg
  constructor
  · intro j x c hj
    have hm := (hp.secs i x (List.mem_of_getElem? hj)).2 t hi
    have hdead : x.block ∉ (memFreeSet t w' h').2.2.live :=
      free_block hi h1 hg (section_mem hm (by simp [sectionBlocks]))
    unfold runSetSteps
    rw [mem_bind]
    unfold Mem.bind
    rw [freeSet_run cmp hi]
    dsimp only
    refine (?_ : Dead x.block _) _ _ hdead
    refine dead_bind (dead_bind ?_ fun _ => keeps_bind (keeps_pure _) fun _ => keeps_pure _)
      fun _ => keeps_pure _
    unfold SetStep.run
    dsimp only
    rw [hj]
    cases c with
    | classId size => exact dead_bind (dead_self (keeps_pure _)) fun _ => keeps_pure _
    | count =>
      exact dead_bind (dead_self (keeps_bind (keeps_use _) fun _ => keeps_pure _)) fun _ => keeps_pure _
    | property index =>
      exact dead_bind (dead_self (keeps_bind (keeps_use _) fun _ => keeps_pure _)) fun _ => keeps_pure _
  · intro j v get hj
    obtain ⟨x, hx1, hx2⟩ := (hp.values i v (List.mem_of_getElem? hj)).2 t hi
    have hdead : v.block ∉ (memFreeSet t w' h').2.2.live :=
      free_block hi h1 hg (section_mem hx1 (value_mem hx2 (by simp [valueBlocks])))
    unfold runSetSteps
    rw [mem_bind]
    unfold Mem.bind
    rw [freeSet_run cmp hi]
    dsimp only
    refine (?_ : Dead v.block _) _ _ hdead
    refine dead_bind (dead_bind ?_ fun _ => keeps_bind (keeps_pure _) fun _ => keeps_pure _)
      fun _ => keeps_pure _
    unfold SetStep.run
    dsimp only
    rw [hj]
    exact dead_bind (dead_self (keeps_bind (keeps_useOpt _) fun _ => keeps_bind (keeps_useOpt _)
      fun _ => keeps_pure _)) fun _ => keeps_pure _

/-! ### Concrete cases -/

/-- A handle with the document that has a property set in a stream of a storage. -/
def summaryWorld : World :=
  { sampleWorld with dev := fun _ => Dev.ofBytes (encodeFile ⟨.little, 9, 6, 4096, {}⟩ summaryDoc) }

theorem cmpNone_comparable (names : List Bytes) : ∀ n ∈ names, Comparable cmpNone n :=
  fun _ _ => ⟨fun _ => by simp [cmpNone], fun _ => by simp [cmpNone]⟩

theorem summary_at : DocAt (.storage summaryDoc) [[66, 0], [5, 0, 83, 0]]
    (.stream (encodeSet .little summarySet)) :=
  DocAt.sub (path := [[66, 0]]) (kids := [([5, 0, 83, 0], .stream (encodeSet .little summarySet))])
    (.sub (path := []) (n := [66, 0]) .here (by rw [summaryDoc]; exact .tail _ (.head _))) (.head _)

theorem emptyHeap_sound (g : Nat → Bool) : Sound (emptyHeap g) :=
  ⟨rfl, List.nodup_nil, fun _ h => by cases h⟩

/-- A program with memory for every request gets the property set of that document, and at its end there
  is no memory in use (C100_set_of_document, C98_order, C98_life). -/
example : ∃ is ps as,
    (memSetProgram cmpNone (findSet 1 1 is) {} summaryWorld (emptyHeap fun _ => true)).1 =
      .ok (as ++ [.set (.ok ps)]) ∧ seenSet ps = summarySet ∧
    (memSetProgram cmpNone (findSet 1 1 is) {} summaryWorld (emptyHeap fun _ => true)).2.2.live = [] := by
  obtain ⟨is, h⟩ := C100_set_of_document (encodeFile_holds (summaryDoc_storable .little)) cmpNone
    (cmpNone_comparable _) summaryWorld ⟨rfl, rfl⟩ 1 rfl 1 rfl summary_at (by rw [summary_length]; decide)
    (encodeSet_holds (summarySet_writable .little)) (by decide)
  obtain ⟨ps, as, h1, h2, -, h3⟩ := h (emptyHeap fun _ => true) {} (emptyHeap_sound _) fun _ => rfl
  exact ⟨is, ps, as, h1, h2, List.perm_nil.1 h3⟩

/-- A document with the truncated set: the memory of a section is in use at the end
  (C98_document_leak_violated, C98_leak_violated). -/
example : ∃ is as,
    (memSetProgram cmpNone (findSet 1 1 is) {}
      { sampleWorld with dev := fun _ => Dev.ofBytes (encodeFile ⟨.little, 9, 6, 4096, {}⟩
        [([65, 0], .stream truncatedSet)]) } (emptyHeap fun _ => true)).1 = .ok (as ++ [.set .err]) ∧
    (memSetProgram cmpNone (findSet 1 1 is) {}
      { sampleWorld with dev := fun _ => Dev.ofBytes (encodeFile ⟨.little, 9, 6, 4096, {}⟩
        [([65, 0], .stream truncatedSet)]) } (emptyHeap fun _ => true)).2.2.live ≠ [] := by
  have hst : Storable ⟨.little, 9, 6, 4096, {}⟩ [([65, 0], .stream truncatedSet)] := by
    refine (C60_storable .little {} noMarks_fits (by simp) ?_ ?_).2 ?_
    · simp [namesOfKids, Doc.names]
    · simp [countKids, Doc.count]
    · simp [streamsOfKids, Doc.streams, truncatedSet]
  obtain ⟨is, h⟩ := C98_document_leak_violated (encodeFile_holds hst) cmpNone
    (cmpNone_comparable _) { sampleWorld with dev := fun _ => Dev.ofBytes (encodeFile ⟨.little, 9, 6, 4096, {}⟩
        [([65, 0], .stream truncatedSet)]) } ⟨rfl, rfl⟩ 1 rfl 1 rfl (path := [[65, 0]])
    (.sub (path := []) (n := [65, 0]) .here (.head _))
  obtain ⟨⟨as, h1⟩, m, h2⟩ := h (emptyHeap fun _ => true) {} (emptyHeap_sound _) fun _ => rfl
  refine ⟨is, as, h1, fun h0 => ?_⟩
  unfold Gained at h2
  rw [h0] at h2
  have := h2.length_eq
  simp [sectionBlocks] at this

theorem pair_of_fst {α β : Type} {x : α × β} {a : α} (h : x.1 = a) : x = (a, x.2) := by
  rw [← h]

/-- A program that holds a section of a set that is not freed, and the item of which the set was asked:
  the hypotheses of C98_use_after_free, C99_honest and C99_defined_partial. -/
theorem summary_held : ∃ is p as w' h' x, FreesLast (findSet 1 1 is ++ [.set 0 (.sec 0)]) ∧
    newSetRun cmpNone (findSet 1 1 is ++ [.set 0 (.sec 0)]) summaryWorld (emptyHeap fun _ => true) =
      (.ok (p, as), w', h') ∧ p.Alive 0 ∧ p.secs[0]? = some (some (0, x)) := by
  obtain ⟨is, base, as, ps, h1, h2, h3⟩ := findSet_answers (encodeFile_holds (summaryDoc_storable .little))
    cmpNone (cmpNone_comparable _) summaryWorld ⟨rfl, rfl⟩ 1 rfl 1 rfl summary_at
    (by rw [summary_length]; decide) (encodeSet_holds (summarySet_writable .little)) (by decide)
  have hl : FreesLast (findSet 1 1 is ++ [.set 0 (.sec 0)]) := by
    unfold findSet
    rw [List.append_assoc]
    exact findItem_freesLast 1 1 is trivial
  obtain ⟨hsame, hret⟩ := C98_same_answers cmpNone _ summaryWorld (emptyHeap_sound fun _ => true)
    (fun _ => rfl) (C98_order cmpNone hl summaryWorld (emptyHeap fun _ => true))
  have hsec : ∃ t, ps.section_ 0 = .ok t := by
    unfold PropSet.section_ arrayGet
    rw [if_neg (by decide)]
    have : (seenSet ps).sections.length = 2 := by rw [h3]; rfl
    have hlen : ps.sections.length = 2 := by
      rw [← this]
      exact (List.length_map ..).symm
    rw [show (Int.toNat 0) = 0 from rfl, List.getElem?_eq_getElem (by omega)]
    exact ⟨_, rfl⟩
  obtain ⟨t, ht⟩ := hsec
  have hans : setAnswers cmpNone ⟨⟨⟨OleFile.new, summaryWorld⟩, []⟩, [], [], []⟩
      (findSet 1 1 is ++ [.set 0 (.sec 0)]) =
      (⟨base, [some ps], [some (0, t)], []⟩, as ++ [.set (.ok ps)] ++ [.sec (.ok t)]) := by
    rw [setAnswers_append, h1]
    unfold setAnswers setAnswers SetStep.answer
    dsimp only [List.getElem?_cons_zero]
    rw [ht]
    rfl
  have hnot : ∀ r, r ≠ .ok ps → SetReply.set r ∉ as ++ [.set (.ok ps)] ++ [.sec (.ok t)] := by
    intro r hr hm
    rcases List.mem_append.1 hm with hm | hm
    · rcases List.mem_append.1 hm with hm | hm
      · exact h2 r hm
      · cases List.mem_singleton.1 hm; exact hr rfl
    · cases List.mem_singleton.1 hm
  obtain ⟨p, as', hrun⟩ := hret (by rw [hans]; exact hnot _ fun h => by cases h)
    (by rw [hans]; exact hnot _ fun h => by cases h)
  have hrun' : newSetRun cmpNone (findSet 1 1 is ++ [.set 0 (.sec 0)]) summaryWorld
      (emptyHeap fun _ => true) = (.ok (p, as'), (newSetRun cmpNone
        (findSet 1 1 is ++ [.set 0 (.sec 0)]) summaryWorld (emptyHeap fun _ => true)).2) :=
    pair_of_fst hrun
  generalize (newSetRun cmpNone (findSet 1 1 is ++ [.set 0 (.sec 0)]) summaryWorld
    (emptyHeap fun _ => true)).2 = y at hrun'
  obtain ⟨w', h'⟩ := y
  have hpv : setProgramValue p w' = ⟨base, [some ps], [some (0, t)], []⟩ := by
    have := hsame p as' w' h' hrun'
    rw [hans] at this
    exact congrArg Prod.fst this
  have hsets : p.sets.map (·.map MSet.view) = [some ps] := congrArg PureSets.sets hpv
  have hsecs : p.secs.map (·.map fun x => (x.1, x.2.view)) = [some (0, t)] := congrArg PureSets.secs hpv
  have h0 : (p.sets.map (·.map MSet.view))[0]? = some (some ps) := by rw [hsets]; rfl
  have h0' : (p.secs.map (·.map fun x => (x.1, x.2.view)))[0]? = some (some (0, t)) := by rw [hsecs]; rfl
  rw [List.getElem?_map] at h0 h0'
  obtain ⟨o, ho, hso⟩ := Option.map_eq_some_iff.1 h0
  obtain ⟨o', ho', hso'⟩ := Option.map_eq_some_iff.1 h0'
  obtain ⟨ms, hms, -⟩ := Option.map_eq_some_iff.1 hso
  obtain ⟨x, hx, hxe⟩ := Option.map_eq_some_iff.1 hso'
  subst hms hx
  refine ⟨is, p, as', w', h', x.2, hl, hrun', ⟨ms, ho⟩, ?_⟩
  rw [ho']
  have : x.1 = 0 := congrArg Prod.fst hxe
  rw [← this]

example : ∃ is p as w' h',
    newSetRun cmpNone (findSet 1 1 is ++ [.set 0 (.sec 0)]) summaryWorld (emptyHeap fun _ => true) =
      (.ok (p, as), w', h') ∧
    (runSetSteps cmpNone p [.freeSet 0, .sec 0 .count] w' h').2.2.bad = true ∧
    (SetStep.sec 0 .count).Allowed p ∧
    (∃ p' a, ((SetStep.sec 0 .count).run cmpNone p w' h').1 = .ok (p', a) ∧ a.Defined) := by
  obtain ⟨is, p, as, w', h', x, h1, h2, h3, h4⟩ := summary_held
  have hc := C98_order cmpNone h1 summaryWorld (emptyHeap fun _ => true)
  have ha : (SetStep.sec 0 .count).Allowed p := by
    intro i y hy
    rw [h4] at hy
    cases hy
    exact h3
  obtain ⟨p', a, k1, k2⟩ := C99_defined_partial cmpNone _ _ (emptyHeap_sound _) hc h2 ha
    (fun _ h => by cases h) (fun _ _ h => by cases h)
  exact ⟨is, p, as, w', h', h2, (C98_use_after_free cmpNone _ _ (emptyHeap_sound _) hc h2 h3).1 0 x _ h4,
    ha, p', a, k1, k2 fun t h => by cases h⟩

/-- A set may be used after the file was closed and the item was freed; a section not after its set. -/
example : FreesLast [.base (.file (.openHandle 1 1 {})), .base .root, .base (.item 0 (.sub 0)), .getSet 1,
      .base (.file (.close {})), .base (.free 1), .set 0 (.sec 0), .sec 0 .count, .freeSet 0] ∧
    ¬ FreesLast [.freeSet 0, .sec 0 .count] := by
  refine ⟨?_, fun h => h.1 0 .count List.mem_cons_self⟩
  simp [FreesLast]

end Olecf.Props
