import Verif.Lemmas.MemSteps

/-! The invariant of programs with items. -/

namespace Olecf
namespace Lemmas

open Olecf.Spec Olecf.Props

variable {σ α β γ δ : Type}

/-! ### What a step keeps -/

theorem ProgOk.given {p : Program} (hp : ProgOk p) {r : Res (Option MItem)} (hr : FileGivenOk p.file r) :
    ProgOk (p.given r).1 := by
  rcases r with (_ | it) | _ | _ | _
  · exact hp
  · refine ⟨hp.ok, hp.tree, hp.fit, fun x hx hf => ?_⟩
    rcases List.mem_append.1 hx with h | h
    · exact hp.items x h hf
    · cases List.mem_singleton.1 h
      exact (hr it rfl).1
  · exact hp
  · exact hp
  · exact hp

theorem given_blocks (p : Program) (r : Res (Option MItem)) (fr : List Nat) :
    (givenBlocks r ++ (programBlocks p ++ fr)).Perm (programBlocks (p.given r).1 ++ fr) := by
  rcases r with (_ | it) | _ | _ | _
  · exact .refl _
  · show ([it.block] ++ (fileBlocks p.file ++ heldBlocks p.items ++ fr)).Perm
      (fileBlocks p.file ++ heldBlocks (p.items ++ [some ⟨it, true⟩]) ++ fr)
    rw [held_append]
    show ([it.block] ++ (fileBlocks p.file ++ heldBlocks p.items ++ fr)).Perm
      (fileBlocks p.file ++ (heldBlocks p.items ++ [it.block]) ++ fr)
    blocks
  · exact .refl _
  · exact .refl _
  · exact .refl _

theorem given_call {p : Program} (hp : ProgOk p) {fr : List Nat} {m : Mem World (Res (Option MItem))}
    {v : Res (Option Item)} (hm : Gives (programBlocks p ++ fr) m v (FileGivenOk p.file)) :
    Call (programBlocks p ++ fr) (m >>= fun r => pure (p.given r))
      (fun r => programBlocks r.1 ++ fr) (fun r => ProgOk r.1) :=
  call_bind hm.call fun r hr => call_pure (given_blocks p r fr) (hp.given hr)

theorem ProgOk.set {p : Program} (hp : ProgOk p) {k : Nat} {x : Option Held}
    (hx : ∀ y, x = some y → y.fresh = true → ItemOk p.file y.item) : ProgOk (p.set k x) := by
  refine ⟨hp.ok, hp.tree, hp.fit, fun y hy hf => ?_⟩
  rcases List.mem_or_eq_of_mem_set hy with h | h
  · exact hp.items y h hf
  · exact hx y h.symm hf

theorem looks_call {pre : List Nat} {m : Mem σ α} {v : σ → α} {k : α → Mem σ β}
    {post : β → List Nat} {Q : β → Prop} (hm : Looks pre m v)
    (hk : ∀ s, Call pre (k (v s)) post Q) : Call pre (m >>= k) post Q :=
  call_bind ⟨hm.stage, hm.ensures⟩ fun a ha => by obtain ⟨s, rfl⟩ := ha; exact hk s

theorem set_blocks {p : Program} {k : Nat} {x : Held} (hk : p.items[k]? = some (some x)) {it : MItem}
    (hb : it.block = x.item.block) (fr : List Nat) :
    programBlocks (p.set k (some ⟨it, x.fresh⟩)) ++ fr = programBlocks p ++ fr := by
  unfold programBlocks Program.set
  rw [held_set_same hk hb]

theorem call_items {p : Program} (hp : ProgOk p) {k : Nat} {x : Held}
    (hk : p.items[k]? = some (some x)) (hf : x.fresh = true) (fr : List Nat) (c : ItemCall) :
    Call (programBlocks p ++ fr) (c.run p k x) (fun r => programBlocks r.1 ++ fr)
      (fun r => ProgOk r.1) := by
  have hx : some x ∈ p.items := List.mem_of_getElem? hk
  have hi := hp.items x hx hf
  have hr := hp.reach hx hf fr
  have hg : ∀ r, GivenOk x.item.pos.tree x.item.ptrs r → FileGivenOk p.file r := fun r h =>
    GivenOk.file hi.tree (by rw [← hi.ptrs]; exact h)
  have hset : ∀ it : MItem, it.block = x.item.block → it.pos = x.item.pos → it.ptrs = x.item.ptrs →
      ∀ a : Reply, Call (programBlocks p ++ fr)
        (pure (p.set k (some ⟨it, x.fresh⟩), a) : Mem World (Program × Reply))
        (fun r => programBlocks r.1 ++ fr) (fun r => ProgOk r.1) := by
    intro it h1 h2 h3 a
    refine call_pure (by rw [set_blocks hk h1]) (hp.set fun y hy _ => ?_)
    cases hy
    exact ⟨by rw [h2]; exact hi.tree, by rw [h2]; exact hi.node, h3.trans hi.ptrs⟩
  cases c with
  | field g => exact looks_call (memField_looks hr g) fun _ => call_pure (.refl _) hp
  | name conv => exact looks_call (memName_looks hr conv) fun _ => call_pure (.refl _) hp
  | count => exact looks_call (memCount_looks hr) fun _ => call_pure (.refl _) hp
  | sub index => exact given_call hp ((memSubItem_gives hr index).weaken hg)
  | subByName t => exact given_call hp ((memSubItemByName_gives hr t.cmp t.units).weaken hg)
  | subByPath t => exact given_call hp ((memSubItemByPath_gives hr t.dec t.cmp t.units).weaken hg)
  | read size =>
    refine looks_call (memRead_looks hr size) fun w => ?_
    have : (readValue p.file x.item size w).1.block = x.item.block ∧
        (readValue p.file x.item size w).1.pos = x.item.pos ∧
        (readValue p.file x.item size w).1.ptrs = x.item.ptrs := by
      unfold readValue; split <;> exact ⟨rfl, rfl, rfl⟩
    exact hset _ this.1 this.2.1 this.2.2 _
  | seek offset whence =>
    exact looks_call (memSeek_looks hr offset whence) fun w =>
      hset { x.item with offset := (streamSeek x.item.pos.item.entry x.item.offset offset whence).2 }
        rfl rfl rfl _
  | position => exact looks_call (memGetOffset_looks hr) fun _ => call_pure (.refl _) hp

theorem memFreeItem_triple (it : MItem) (fr : List Nat) :
    Triple (it.block :: fr) (memFreeItem it : Mem σ Unit) (fun _ => fr) (fun _ => False) :=
  triple_use' List.mem_cons_self triple_release_head

theorem memFreeItem_quiet (it : MItem) : Quiet (memFreeItem it : Mem σ Unit) :=
  quiet_bind (quiet_use _) (quiet_release _)

theorem fileBlocks_mem (p : Program) (fr : List Nat) : ∀ b ∈ fileBlocks p.file,
    b ∈ programBlocks p ++ fr := fun _ h => List.mem_append_left _ (List.mem_append_left _ h)

theorem afterOp_fresh {op : FileOp} {x : Held} (h : (x.afterOp op).fresh = true) :
    isClose op = false ∧ x.fresh = true ∧ (x.afterOp op).item = x.item := by
  cases op with
  | close flt => cases h
  | openHandle _ _ _ => exact ⟨rfl, h, rfl⟩
  | openName _ _ _ => exact ⟨rfl, h, rfl⟩
  | setCodepage _ => exact ⟨rfl, h, rfl⟩
  | signalAbort => exact ⟨rfl, h, rfl⟩
  | caller _ _ _ => exact ⟨rfl, h, rfl⟩

theorem file_call (cmp : Bytes → Bytes → Option Bool) {p : Program} (hp : ProgOk p) (op : FileOp)
    (fr : List Nat) :
    Call (programBlocks p ++ fr) ((Step.file op).run cmp p) (fun r => programBlocks r.1 ++ fr)
      (fun r => ProgOk r.1) := by
  have hc := op_call cmp op p.file hp.ok (heldBlocks p.items ++ fr)
  rw [← List.append_assoc] at hc
  have hc' : Call (programBlocks p ++ fr) (op.mem cmp p.file)
      (fun r => fileBlocks r.1 ++ (heldBlocks p.items ++ fr)) (fun r => OpPost p.file r ∧
        (TreeOk p.file.tree → TreeOk r.1.tree) ∧ (isClose op = false → Persists p.file r.1) ∧
        ((r.1.handle = none → r.1.tree = none) → FileFit r.1)) :=
    ⟨hc.stage, fun s h a ha => ⟨hc.ensures s h a ha, (op_stays cmp op p.file s h a ha).1,
      (op_stays cmp op p.file s h a ha).2, op_fit cmp op p.file hp.fit s h a ha⟩⟩
  refine call_bind hc' fun r hr => call_pure ?_ ⟨hr.1.ok, hr.2.1 hp.tree, hr.2.2.2 hr.1.ok.tree, ?_⟩
  · dsimp only
    unfold programBlocks
    rw [held_map, List.append_assoc]
  · intro y hy hf
    obtain ⟨o, ho, hoy⟩ := List.mem_map.1 hy
    cases o with
    | none => cases hoy
    | some x =>
      cases hoy
      obtain ⟨h1, h2, h3⟩ := afterOp_fresh hf
      have hi := hp.items x ho h2
      obtain ⟨e1, e2, e3⟩ := (hr.2.2.1 h1).same (tree_open hp.ok hi.tree)
      rw [h3]
      refine ⟨e1.trans hi.tree, hi.node, hi.ptrs.trans ?_⟩
      dsimp only
      unfold MFile.ptrs
      rw [e2, e3, hr.1.block, hr.1.ioBlock]

theorem step_call (cmp : Bytes → Bytes → Option Bool) {p : Program} (hp : ProgOk p) {s : Step}
    (hs : s.Allowed p) (fr : List Nat) :
    Call (programBlocks p ++ fr) (s.run cmp p) (fun r => programBlocks r.1 ++ fr)
      (fun r => ProgOk r.1) := by
  cases s with
  | file op => exact file_call cmp hp op fr
  | root => exact given_call hp (memRootItem_gives (fileBlocks_mem p fr))
  | path t =>
    exact given_call hp (memFileItemByPath_gives hp.tree (fileBlocks_mem p fr) t.dec t.cmp t.units)
  | item k c =>
    unfold Step.run
    dsimp only
    split
    · rename_i x hk
      exact call_items hp hk (hs x hk) fr c
    · exact call_pure (.refl _) hp
  | free k =>
    unfold Step.run
    dsimp only
    split
    · rename_i x hk
      refine call_quiet (memFreeItem_quiet _)
        (triple_pre (memFreeItem_triple x.item (programBlocks (p.set k none) ++ fr)) ?_)
        (call_pure (.refl _) (hp.set fun y hy => (by cases hy)))
      have := held_set_none hk
      unfold programBlocks Program.set
      dsimp only
      refine ((this.append_left _).append_right fr).trans ?_
      blocks
    · exact call_pure (.refl _) hp

/-! ### Whole programs -/

theorem runSteps_outcome (cmp : Bytes → Bytes → Option Bool) (steps : List Step) :
    ∀ {p : Program}, ProgOk p → ∀ {w : World} {h : Heap} {rest : List Nat}, Sound h →
      h.live.Perm (programBlocks p ++ rest) → Careful cmp p steps w h →
      Sound (runSteps cmp p steps w h).2.2 ∧ (runSteps cmp p steps w h).2.2.grant = h.grant ∧
      ∃ r, (runSteps cmp p steps w h).1 = .ok r ∧ ProgOk r.1 ∧ r.2.length = steps.length ∧
        (runSteps cmp p steps w h).2.2.live.Perm (programBlocks r.1 ++ rest) := by
  induction steps with
  | nil => intro p hp w h rest hs hl _; exact ⟨hs, rfl, _, rfl, hp, rfl, hl⟩
  | cons s steps ih =>
    intro p hp w h rest hs hl hc
    obtain ⟨ha, hc⟩ := hc
    have h1 := step_call cmp hp ha []
    rw [List.append_nil] at h1
    obtain ⟨k1, r, k2, k3⟩ := stage_outcome h1.stage w hs hl
    have k4 := h1.ensures w h r k2
    have k5 := (h1.stage.blocks w h rest hs hl).2.1
    unfold runSteps
    rw [mem_bind]
    unfold Mem.bind
    revert k1 k2 k3 k5 hc
    rcases s.run cmp p w h with ⟨o, w', h'⟩
    intro hc k1 k2 k3 k5
    dsimp only at hc k1 k2 k3 k5
    subst k2
    dsimp only at hc ⊢
    rw [List.append_nil] at k3
    obtain ⟨j1, j2, r', j3, j4, j5, j6⟩ := ih k4 k1 k3 hc
    rw [mem_bind]
    unfold Mem.bind
    revert j1 j2 j3 j6
    rcases runSteps cmp r.1 steps w' h' with ⟨o, w'', h''⟩
    intro j1 j2 j3 j6
    dsimp only at j1 j2 j3 j6
    subst j3
    exact ⟨j1, j2.trans k5, _, rfl, j4, by simp [j5], j6⟩

/-! ### With memory for every request -/

/-- What a step does with memory for every request. -/
def StepAt (m : Mem World (Program × Reply)) (w : World) (v : PureProgram × Reply) : Prop :=
  ∀ h, Ample h → ∃ r w' h', m w h = (.ok r, w', h') ∧ Ample h' ∧ programValue r.1 w' = v.1 ∧ r.2 = v.2

theorem stepAt_pure {p : Program} {a : Reply} {w : World} {v : PureProgram × Reply}
    (h1 : programValue p w = v.1) (h2 : a = v.2) :
    StepAt (pure (p, a)) w v := fun h ha => ⟨_, _, h, rfl, ha, h1, h2⟩

theorem stepAt_looks {pre : List Nat} {m : Mem World α} {k : α → Mem World (Program × Reply)}
    {f : World → α} {w : World} {v : PureProgram × Reply} (hm : Looks pre m f)
    (hk : StepAt (k (f w)) w v) : StepAt (m >>= k) w v := by
  intro h ha
  obtain ⟨h', e, g, -⟩ := hm.gives w h
  rw [mem_bind]
  unfold Mem.bind
  rw [e]
  exact hk h' ((ample_congr g).2 ha)

theorem stepAt_given {pre : List Nat} {m : Mem World (Res (Option MItem))} {v : Res (Option Item)}
    {p : Program} {w : World} (hm : Gives pre m v (FileGivenOk p.file)) :
    StepAt (m >>= fun r => pure (p.given r)) w ((programValue p w).given v) := by
  intro h ha
  obtain ⟨k1, k2, k3⟩ := hm.value w h ha
  have k4 := hm.call.ensures w h
  rw [mem_bind]
  unfold Mem.bind
  revert k1 k2 k3 k4
  rcases m w h with ⟨o, w', h'⟩
  intro k1 k2 k3 k4
  dsimp only at k1 k2 k3 k4
  subst k2
  cases o with
  | ok r =>
    have : v = givenValue r := Res.ok.inj k3
    subst this
    refine ⟨_, _, _, rfl, k1, ?_⟩
    rcases r with (_ | it) | _ | _ | _
    · exact ⟨rfl, rfl⟩
    · refine ⟨?_, rfl⟩
      have h4 := (k4 _ rfl it rfl).2
      unfold programValue Program.given PureProgram.given givenValue
      dsimp only
      rw [List.map_append, List.map_cons, List.map_nil, Option.map_some]
      unfold heldValue
      dsimp only
      rw [h4]
    · exact ⟨rfl, rfl⟩
    · exact ⟨rfl, rfl⟩
    · exact ⟨rfl, rfl⟩
  | err => cases k3
  | ub => cases k3
  | hang => cases k3

theorem stepAt_set {p : Program} {k : Nat} {it : MItem} {b : Bool} {a : Reply} {w : World} :
    StepAt (pure (p.set k (some ⟨it, b⟩), a)) w
      ({ programValue p w with
          items := (programValue p w).items.set k (some ⟨it.pos.item, it.offset⟩) }, a) := by
  refine stepAt_pure ?_ rfl
  unfold programValue Program.set
  dsimp only
  rw [List.map_set]
  rfl

theorem value_get {p : Program} {w : World} {k : Nat} :
    (programValue p w).items[k]? = p.items[k]?.map (·.map heldValue) := List.getElem?_map ..

theorem set_self {β : Type} {l : List β} {k : Nat} {x : β} (h : l[k]? = some x) : l.set k x = l := by
  refine List.ext_getElem? fun i => ?_
  rw [List.getElem?_set]
  split
  · rename_i hi
    subst hi
    have := (List.getElem?_eq_some_iff.1 h).1
    rw [if_pos this, h]
  · rfl

theorem items_at {p : Program} (hp : ProgOk p) {k : Nat} {x : Held}
    (hk : p.items[k]? = some (some x)) (hf : x.fresh = true) (w : World) (c : ItemCall) :
    StepAt (c.run p k x) w (c.answer (programValue p w) k (heldValue x)) := by
  have hx : some x ∈ p.items := List.mem_of_getElem? hk
  have hi := hp.items x hx hf
  have hr := hp.reach hx hf []
  have ht : (programValue p w).state.file.tree = some (MTreeValue x.item.pos.tree) := by
    show p.file.tree.map _ = _
    rw [hi.tree]; rfl
  have hg : ∀ r, GivenOk x.item.pos.tree x.item.ptrs r → FileGivenOk p.file r := fun r h =>
    GivenOk.file hi.tree (by rw [← hi.ptrs]; exact h)
  unfold ItemCall.answer
  cases c with
  | field g => cases g <;> exact stepAt_looks (memField_looks hr _) (stepAt_pure rfl rfl)
  | name conv => exact stepAt_looks (memName_looks hr conv) (stepAt_pure rfl rfl)
  | count =>
    dsimp only
    rw [ht]
    exact stepAt_looks (memCount_looks hr) (stepAt_pure rfl rfl)
  | sub index =>
    dsimp only
    rw [ht]
    exact stepAt_given ((memSubItem_gives hr index).weaken hg)
  | subByName t =>
    dsimp only
    rw [ht]
    exact stepAt_given ((memSubItemByName_gives hr t.cmp t.units).weaken hg)
  | subByPath t =>
    dsimp only
    rw [ht]
    exact stepAt_given ((memSubItemByPath_gives hr t.dec t.cmp t.units).weaken hg)
  | read size =>
    refine stepAt_looks (memRead_looks hr size) ?_
    dsimp only
    have hh : (programValue p w).state.file.handle = x.item.ptrs.handle := by rw [hi.ptrs]; rfl
    rw [hh]
    unfold readValue
    show StepAt _ w (match x.item.ptrs.handle.bind fun h => (MFile.value p.file).ctx (w.dev h) with
      | some f => _ | none => _)
    generalize (x.item.ptrs.handle.bind fun h => (MFile.value p.file).ctx (w.dev h)) = o
    cases o with
    | some c =>
      exact stepAt_set
        (it := { x.item with offset := (streamRead c x.item.pos.item.entry x.item.offset size).2 })
    | none =>
      refine stepAt_pure ?_ rfl
      show programValue (p.set k (some x)) w = programValue p w
      unfold Program.set
      rw [set_self hk]
  | seek offset whence => exact stepAt_looks (memSeek_looks hr offset whence) stepAt_set
  | position => exact stepAt_looks (memGetOffset_looks hr) (stepAt_pure rfl rfl)

theorem step_at (cmp : Bytes → Bytes → Option Bool) {p : Program} (hp : ProgOk p) {s : Step}
    (hs : s.Allowed p) (w : World) :
    StepAt (s.run cmp p) w (s.answer cmp (programValue p w)) := by
  cases s with
  | file op =>
    intro h ha
    obtain ⟨k1, k2, k3⟩ := op_at cmp op p.file w h ha
    have hd := op_defined cmp op ⟨MFile.value p.file, w⟩
    unfold Step.run Step.answer
    dsimp only
    rw [mem_bind]
    unfold Mem.bind
    have hst : (programValue p w).state = ⟨MFile.value p.file, w⟩ := rfl
    rw [hst]
    revert k1 k2 k3 hd
    generalize op.run cmp ⟨MFile.value p.file, w⟩ = o
    obtain ⟨res, ⟨file, w1⟩⟩ := o
    rcases FileOp.mem cmp p.file op w h with ⟨r, t, h'⟩
    intro k1 k2 k3 hd
    dsimp only at k1 k2 k3 hd ⊢
    subst k2
    have hmap : ∀ f1 : MFile, programValue ⟨f1, p.items.map (·.map (·.afterOp op))⟩ t =
        { programValue p w with state := ⟨MFile.value f1, t⟩ } := by
      intro f1
      unfold programValue
      dsimp only
      rw [List.map_map]
      congr 1
      refine List.map_congr_left fun x _ => ?_
      cases x with
      | none => rfl
      | some x => cases op <;> rfl
    cases r with
    | ok a =>
      obtain ⟨f1, b⟩ := a
      refine ⟨_, _, _, rfl, k1, ?_⟩
      dsimp only
      rw [hmap]
      rcases hd with rfl | rfl
      · have := Res.ok.inj k3
        unfold callView at this
        simp only [Prod.mk.injEq] at this
        obtain ⟨rfl, rfl⟩ := this
        exact ⟨rfl, rfl⟩
      · have := Res.ok.inj k3
        unfold callView at this
        simp only [Prod.mk.injEq] at this
        obtain ⟨rfl, rfl⟩ := this
        exact ⟨rfl, rfl⟩
    | err => rcases hd with rfl | rfl <;> cases k3
    | ub => rcases hd with rfl | rfl <;> cases k3
    | hang => rcases hd with rfl | rfl <;> cases k3
  | root => exact stepAt_given (memRootItem_gives (fileBlocks_mem p []))
  | path t =>
    exact stepAt_given (memFileItemByPath_gives hp.tree (fileBlocks_mem p []) t.dec t.cmp t.units)
  | item k c =>
    unfold Step.run Step.answer
    dsimp only
    rw [value_get]
    cases hk : p.items[k]? with
    | none => exact stepAt_pure rfl rfl
    | some o =>
      cases o with
      | none => exact stepAt_pure rfl rfl
      | some x => exact items_at hp hk (hs x hk) w c
  | free k =>
    unfold Step.run Step.answer
    dsimp only
    rw [value_get]
    cases hk : p.items[k]? with
    | none => exact stepAt_pure rfl rfl
    | some o =>
      cases o with
      | none => exact stepAt_pure rfl rfl
      | some x =>
        intro h ha
        obtain ⟨h', g, he⟩ := quiet_bind_eq (memFreeItem_quiet x.item)
          (fun _ => (pure (p.set k none, Reply.done true) : Mem World (Program × Reply))) w h
        refine ⟨_, w, h', he, (ample_congr g).2 ha, ?_, rfl⟩
        unfold programValue Program.set
        dsimp only
        rw [List.map_set]
        rfl

theorem runSteps_at (cmp : Bytes → Bytes → Option Bool) (steps : List Step) :
    ∀ {p : Program}, ProgOk p → ∀ {w : World} {h : Heap}, Ample h → Careful cmp p steps w h →
      ∃ p' w' h', runSteps cmp p steps w h = (.ok (p', answers cmp (programValue p w) steps), w', h') ∧
        programValue p' w' = holdsAfter cmp (programValue p w) steps := by
  induction steps with
  | nil => intro p hp w h _ _; exact ⟨_, _, _, rfl, rfl⟩
  | cons s steps ih =>
    intro p hp w h ha hc
    obtain ⟨hal, hc⟩ := hc
    obtain ⟨r, w', h', k1, k2, k3, k4⟩ := step_at cmp hp hal w h ha
    have hinv := (step_call cmp hp hal []).ensures w h r (by rw [k1])
    rw [k1] at hc
    dsimp only at hc
    obtain ⟨p', w'', h'', k5, k6⟩ := ih hinv k2 hc
    refine ⟨p', w'', h'', ?_, by rw [k6, k3]; rfl⟩
    unfold runSteps
    rw [mem_bind]
    unfold Mem.bind
    rw [k1]
    dsimp only
    rw [mem_bind]
    unfold Mem.bind
    rw [k5]
    show (Res.ok (p', r.2 :: _), w'', h'') = _
    rw [k3, k4]
    rfl

/-! ### With any memory -/

/-- What a step other than a call on the file object does: what `v` says, or it fails for lack of
  memory and leaves everything as it was. -/
def HonestAt (m : Mem World (Program × Reply)) (p : Program) (w : World) (v : PureProgram × Reply) :
    Prop :=
  ∀ h, (m w h).2.1 = w ∧ ∀ r, (m w h).1 = .ok r →
    programValue r.1 w = v.1 ∧ r.2 = v.2 ∨ r = (p, .item .err) ∧ h.grant h.asked = false

theorem honestAt_pure {p q : Program} {a : Reply} {w : World} {v : PureProgram × Reply}
    (h1 : programValue q w = v.1) (h2 : a = v.2) : HonestAt (pure (q, a)) p w v :=
  fun h => ⟨rfl, fun r hr => (by cases hr; exact .inl ⟨h1, h2⟩)⟩

theorem honestAt_looks {pre : List Nat} {m : Mem World α} {k : α → Mem World (Program × Reply)}
    {f : World → α} {w : World} {p : Program} {v : PureProgram × Reply} (hm : Looks pre m f)
    (hk : HonestAt (k (f w)) p w v) : HonestAt (m >>= k) p w v := by
  intro h
  obtain ⟨h', e, g, a⟩ := hm.gives w h
  rw [mem_bind]
  unfold Mem.bind
  rw [e, ← g, ← a]
  exact hk h'

theorem honestAt_given {pre : List Nat} {m : Mem World (Res (Option MItem))} {v : Res (Option Item)}
    {p : Program} {w : World} (hm : Gives pre m v (FileGivenOk p.file)) :
    HonestAt (m >>= fun r => pure (p.given r)) p w ((programValue p w).given v) := by
  intro h
  obtain ⟨k1, k2⟩ := hm.honest w h
  have k3 := hm.call.ensures w h
  rw [mem_bind]
  unfold Mem.bind
  revert k1 k2 k3
  rcases m w h with ⟨o, w', h'⟩
  intro k1 k2 k3
  dsimp only at k1 k2 k3
  subst k1
  cases o with
  | ok r =>
    refine ⟨rfl, fun r' hr => ?_⟩
    cases hr
    rcases k2 r rfl with rfl | ⟨rfl, hg⟩
    · left
      rcases r with (_ | it) | _ | _ | _
      · exact ⟨rfl, rfl⟩
      · refine ⟨?_, rfl⟩
        have h4 := (k3 _ rfl it rfl).2
        unfold programValue Program.given PureProgram.given givenValue
        dsimp only
        rw [List.map_append, List.map_cons, List.map_nil, Option.map_some]
        unfold heldValue
        dsimp only
        rw [h4]
      · exact ⟨rfl, rfl⟩
      · exact ⟨rfl, rfl⟩
      · exact ⟨rfl, rfl⟩
    · exact .inr ⟨rfl, hg⟩
  | _ => exact ⟨rfl, fun r' hr => (by cases hr)⟩

theorem honestAt_set {p q : Program} {k : Nat} {it : MItem} {b : Bool} {a : Reply} {w : World} :
    HonestAt (pure (p.set k (some ⟨it, b⟩), a)) q w
      ({ programValue p w with
          items := (programValue p w).items.set k (some ⟨it.pos.item, it.offset⟩) }, a) := by
  refine honestAt_pure ?_ rfl
  unfold programValue Program.set
  dsimp only
  rw [List.map_set]
  rfl

theorem items_honest {p : Program} (hp : ProgOk p) {k : Nat} {x : Held}
    (hk : p.items[k]? = some (some x)) (hf : x.fresh = true) (w : World) (c : ItemCall) :
    HonestAt (c.run p k x) p w (c.answer (programValue p w) k (heldValue x)) := by
  have hx : some x ∈ p.items := List.mem_of_getElem? hk
  have hi := hp.items x hx hf
  have hr := hp.reach hx hf []
  have ht : (programValue p w).state.file.tree = some (MTreeValue x.item.pos.tree) := by
    show p.file.tree.map _ = _
    rw [hi.tree]; rfl
  have hg : ∀ r, GivenOk x.item.pos.tree x.item.ptrs r → FileGivenOk p.file r := fun r h =>
    GivenOk.file hi.tree (by rw [← hi.ptrs]; exact h)
  unfold ItemCall.answer
  cases c with
  | field g => cases g <;> exact honestAt_looks (memField_looks hr _) (honestAt_pure rfl rfl)
  | name conv => exact honestAt_looks (memName_looks hr conv) (honestAt_pure rfl rfl)
  | count =>
    dsimp only
    rw [ht]
    exact honestAt_looks (memCount_looks hr) (honestAt_pure rfl rfl)
  | sub index =>
    dsimp only
    rw [ht]
    exact honestAt_given ((memSubItem_gives hr index).weaken hg)
  | subByName t =>
    dsimp only
    rw [ht]
    exact honestAt_given ((memSubItemByName_gives hr t.cmp t.units).weaken hg)
  | subByPath t =>
    dsimp only
    rw [ht]
    exact honestAt_given ((memSubItemByPath_gives hr t.dec t.cmp t.units).weaken hg)
  | read size =>
    refine honestAt_looks (memRead_looks hr size) ?_
    dsimp only
    have hh : (programValue p w).state.file.handle = x.item.ptrs.handle := by rw [hi.ptrs]; rfl
    rw [hh]
    unfold readValue
    show HonestAt _ p w (match x.item.ptrs.handle.bind fun h => (MFile.value p.file).ctx (w.dev h) with
      | some f => _ | none => _)
    generalize (x.item.ptrs.handle.bind fun h => (MFile.value p.file).ctx (w.dev h)) = o
    cases o with
    | some c =>
      exact honestAt_set
        (it := { x.item with offset := (streamRead c x.item.pos.item.entry x.item.offset size).2 })
    | none =>
      refine honestAt_pure ?_ rfl
      show programValue (p.set k (some x)) w = programValue p w
      unfold Program.set
      rw [set_self hk]
  | seek offset whence => exact honestAt_looks (memSeek_looks hr offset whence) honestAt_set
  | position => exact honestAt_looks (memGetOffset_looks hr) (honestAt_pure rfl rfl)

theorem step_honest (cmp : Bytes → Bytes → Option Bool) {p : Program} (hp : ProgOk p) {s : Step}
    (hs : s.Allowed p) (hn : ∀ op, s ≠ .file op) (w : World) :
    HonestAt (s.run cmp p) p w (s.answer cmp (programValue p w)) := by
  cases s with
  | file op => exact absurd rfl (hn op)
  | root => exact honestAt_given (memRootItem_gives (fileBlocks_mem p []))
  | path t =>
    exact honestAt_given (memFileItemByPath_gives hp.tree (fileBlocks_mem p []) t.dec t.cmp t.units)
  | item k c =>
    unfold Step.run Step.answer
    dsimp only
    rw [value_get]
    cases hk : p.items[k]? with
    | none => exact honestAt_pure rfl rfl
    | some o =>
      cases o with
      | none => exact honestAt_pure rfl rfl
      | some x => exact items_honest hp hk (hs x hk) w c
  | free k =>
    unfold Step.run Step.answer
    dsimp only
    rw [value_get]
    cases hk : p.items[k]? with
    | none => exact honestAt_pure rfl rfl
    | some o =>
      cases o with
      | none => exact honestAt_pure rfl rfl
      | some x =>
        have hx : some x ∈ p.items := List.mem_of_getElem? hk
        intro h
        have hq := memFreeItem_quiet (σ := World) x.item w h
        dsimp only
        rw [mem_bind]
        unfold Mem.bind
        revert hq
        rcases memFreeItem x.item w h with ⟨r, w', h'⟩
        intro hq
        obtain ⟨e1, e2, e3⟩ := hq
        dsimp only at e1 e2 e3
        subst e1 e2
        refine ⟨rfl, fun r hr => ?_⟩
        cases hr
        refine .inl ⟨?_, rfl⟩
        unfold programValue Program.set
        dsimp only
        rw [List.map_set]
        rfl

end Lemmas
end Olecf
