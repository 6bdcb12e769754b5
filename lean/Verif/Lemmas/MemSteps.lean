import Verif.Lemmas.MemProgram
import Verif.Lemmas.MemFit

/-! The steps of programs with items. -/

namespace Olecf
namespace Lemmas

open Olecf.Spec Olecf.Props

variable {σ α β γ δ : Type}

/-! ### Blocks -/

theorem held_cons (x : Option Held) (l : List (Option Held)) :
    heldBlocks (x :: l) = x.toList.map (·.item.block) ++ heldBlocks l := rfl

theorem held_append (l l' : List (Option Held)) :
    heldBlocks (l ++ l') = heldBlocks l ++ heldBlocks l' := by
  unfold heldBlocks; rw [List.flatMap_append]

theorem held_mem {l : List (Option Held)} {x : Held} (h : some x ∈ l) :
    x.item.block ∈ heldBlocks l :=
  List.mem_flatMap.2 ⟨_, h, by simp⟩

theorem held_set_same : ∀ {l : List (Option Held)} {k : Nat} {x y : Held},
    l[k]? = some (some x) → y.item.block = x.item.block → heldBlocks (l.set k (some y)) = heldBlocks l
  | [], k, x, y, h, _ => by simp at h
  | a :: l, 0, x, y, h, hb => by
    simp only [List.getElem?_cons_zero, Option.some.injEq] at h
    subst h
    rw [List.set_cons_zero, held_cons, held_cons]
    simp [hb]
  | a :: l, k + 1, x, y, h, hb => by
    rw [List.getElem?_cons_succ] at h
    rw [List.set_cons_succ, held_cons, held_cons, held_set_same h hb]

theorem held_set_none : ∀ {l : List (Option Held)} {k : Nat} {x : Held},
    l[k]? = some (some x) → (heldBlocks l).Perm (x.item.block :: heldBlocks (l.set k none))
  | [], k, x, h => by simp at h
  | a :: l, 0, x, h => by
    simp only [List.getElem?_cons_zero, Option.some.injEq] at h
    subst h
    rw [List.set_cons_zero, held_cons, held_cons]
    exact .refl _
  | a :: l, k + 1, x, h => by
    rw [List.getElem?_cons_succ] at h
    rw [List.set_cons_succ, held_cons, held_cons]
    refine ((held_set_none h).append_left _).trans ?_
    exact List.perm_middle

theorem held_map {l : List (Option Held)} (op : FileOp) :
    heldBlocks (l.map (·.map (·.afterOp op))) = heldBlocks l := by
  induction l with
  | nil => rfl
  | cons a l ih =>
    rw [List.map_cons, held_cons, held_cons, ih]
    cases a with
    | none => rfl
    | some x => cases op <;> rfl

/-! ### The invariant -/

/-- A fresh item of a file. -/
structure ItemOk (f : MFile) (it : MItem) : Prop where
  tree : f.tree = some it.pos.tree
  node : it.pos.node ∈ it.pos.tree.all
  ptrs : it.ptrs = f.ptrs

/-- What holds of a program between two steps. -/
structure ProgOk (p : Program) : Prop where
  ok : FileOk p.file
  tree : TreeOk p.file.tree
  fit : FileFit p.file
  items : ∀ x, some x ∈ p.items → x.fresh = true → ItemOk p.file x.item

theorem tree_open {f : MFile} (hf : FileOk f) {t : MTree} (h : f.tree = some t) :
    f.handle.isSome = true := by
  cases hh : f.handle with
  | some _ => rfl
  | none => rw [hf.tree hh] at h; cases h

/-- The blocks that a call on a fresh item may touch. -/
structure Reach (pre : List Nat) (f : MFile) (it : MItem) : Prop where
  item : it.block ∈ pre
  linked : Linked it.pos.tree.nodes it.pos.tree.kids
  within : Within it.pos.tree pre
  node : it.pos.node ∈ it.pos.tree.all
  file : it.ptrs.file ∈ pre
  io : it.ptrs.ioBlock ∈ pre
  handle : ∀ b ∈ it.ptrs.handleBlock.toList, b ∈ pre
  sat : ∀ t ∈ f.sat.toList, t.block ∈ pre ∧ ∀ b ∈ t.ids.toList, b ∈ pre
  ssat : ∀ t ∈ f.ssat.toList, t.block ∈ pre ∧ ∀ b ∈ t.ids.toList, b ∈ pre

theorem file_within {f : MFile} {t : MTree} {pre : List Nat} (h : f.tree = some t)
    (hb : ∀ b ∈ fileBlocks f, b ∈ pre) : Within t pre :=
  within_blocks fun b h' => hb b (by
    unfold fileBlocks contentBlocks
    rw [h]
    simp only [List.mem_cons, List.mem_append]
    exact .inr (.inr (.inr h')))

theorem table_reach {pre : List Nat} {x : Option MTable}
    (hb : ∀ b ∈ x.toList.flatMap tableBlocks, b ∈ pre) :
    ∀ t ∈ x.toList, t.block ∈ pre ∧ ∀ b ∈ t.ids.toList, b ∈ pre := by
  intro t ht
  have : ∀ b ∈ tableBlocks t, b ∈ pre := fun b h => hb b (List.mem_flatMap.2 ⟨t, ht, h⟩)
  exact ⟨this _ (by simp [tableBlocks]), fun b h => this b (List.mem_cons_of_mem _ h)⟩

theorem ProgOk.reach {p : Program} (hp : ProgOk p) {x : Held} (hx : some x ∈ p.items)
    (hf : x.fresh = true) (fr : List Nat) : Reach (programBlocks p ++ fr) p.file x.item := by
  have hi := hp.items x hx hf
  have hb : ∀ b ∈ fileBlocks p.file, b ∈ programBlocks p ++ fr := fun b h =>
    List.mem_append_left _ (List.mem_append_left _ h)
  refine ⟨List.mem_append_left _ (List.mem_append_right _ (held_mem hx)), hp.tree _ hi.tree,
    file_within hi.tree hb, hi.node, ?_, ?_, ?_, table_reach ?_,
    table_reach ?_⟩
  · rw [hi.ptrs]; exact hb _ (by simp [MFile.ptrs, fileBlocks])
  · rw [hi.ptrs]; exact hb _ (by simp [MFile.ptrs, fileBlocks])
  · rw [hi.ptrs]
    intro b h
    refine hb _ ?_
    unfold fileBlocks contentBlocks
    simp only [List.mem_cons, List.mem_append]
    exact .inr (.inr (.inl (.inl (.inl (.inl h)))))
  · intro b h
    refine hb _ ?_
    unfold fileBlocks contentBlocks
    simp only [List.mem_cons, List.mem_append]
    exact .inr (.inr (.inl (.inl (.inr h))))
  · intro b h
    refine hb _ ?_
    unfold fileBlocks contentBlocks
    simp only [List.mem_cons, List.mem_append]
    exact .inr (.inr (.inl (.inr h)))

/-! ### The calls on items that give no item -/

variable {pre : List Nat} {f : MFile} {it : MItem}

theorem Reach.entry (h : Reach pre f it) : it.pos.node.value.block ∈ pre := (h.within _ h.node).2.1

theorem memField_looks (h : Reach pre f it) (g : Field) :
    Looks pre (memField it g : Mem σ Nat) (fun _ => g.of it.pos.item.entry) :=
  looks_use h.item (looks_use h.entry (looks_pure fun _ => rfl))

theorem memName_looks (h : Reach pre f it) (conv : IoHandle → Item → Res α) :
    Looks pre (memName conv f it : Mem σ (Res α)) (fun _ => conv f.io it.pos.item) :=
  looks_use h.item (looks_use h.entry (looks_use h.io
    (looks_useOpt (h.within _ h.node).2.2 (looks_pure fun _ => rfl))))

theorem memCount_looks (h : Reach pre f it) :
    Looks pre (memCount it : Mem σ Nat) (fun _ => numberOfSubItems (MTreeValue it.pos.tree) it.pos.item) :=
  looks_use h.item (looks_use (h.within _ h.node).1 (looks_pure fun _ => rfl))

theorem memSeek_looks (h : Reach pre f it) (offset : Int) (whence : Whence) :
    Looks pre (memSeek it offset whence : Mem σ (MItem × Res Int)) (fun _ =>
      ({ it with offset := (streamSeek it.pos.item.entry it.offset offset whence).2 },
        (streamSeek it.pos.item.entry it.offset offset whence).1)) :=
  looks_use h.item (looks_use h.entry (looks_pure fun _ => rfl))

theorem memGetOffset_looks (h : Reach pre f it) :
    Looks pre (memGetOffset it : Mem σ (Res Int))
      (fun _ => streamGetOffset it.pos.item.entry it.offset) :=
  looks_use h.item (looks_use h.entry (looks_pure fun _ => rfl))

/-- What `memRead` gives. -/
def readValue (f : MFile) (it : MItem) (size : Nat) (w : World) : MItem × Res Bytes :=
  match it.ptrs.handle.bind fun h => (MFile.value f).ctx (w.dev h) with
  | some c =>
    ({ it with offset := (streamRead c it.pos.item.entry it.offset size).2 },
      (streamRead c it.pos.item.entry it.offset size).1.res)
  | none => (it, .err)

theorem useTable_looks {t : MTable} (h : t.block ∈ pre ∧ ∀ b ∈ t.ids.toList, b ∈ pre) :
    Looks pre (useTable t : Mem σ Unit) (fun _ => ()) := by
  unfold useTable
  refine looks_use h.1 ?_
  cases hi : t.ids with
  | none => exact looks_pure fun _ => rfl
  | some b =>
    refine ⟨fun s hp => ?_, triple_use (h.2 b (by rw [hi]; simp))⟩
    unfold Mem.useOpt Mem.use
    dsimp only
    split
    · exact ⟨hp, rfl, rfl, rfl⟩
    · exact ⟨_, rfl, rfl, rfl⟩

theorem memRead_looks (h : Reach pre f it) (size : Nat) :
    Looks pre (memRead f it size) (readValue f it size) := by
  unfold memRead
  refine looks_use h.item (looks_use h.entry (looks_use h.file (looks_use h.io
    (looks_useOpt h.handle (looks_forEach (fun t ht => useTable_looks (h.sat t ht))
      (looks_forEach (fun t ht => useTable_looks (h.ssat t ht)) ?_))))))
  unfold readValue
  cases hh : it.ptrs.handle with
  | none => exact looks_pure fun _ => rfl
  | some hd =>
    cases hs : f.sat with
    | none =>
      refine looks_pure fun w => ?_
      show (match (some hd).bind fun h => (MFile.value f).ctx (w.dev h) with | some c => _ | none => _) = _
      have : (MFile.value f).ctx (w.dev hd) = none := by
        unfold OleFile.ctx MFile.value; rw [hs]; rfl
      simp only [Option.bind_some, this]
    | some sat =>
      cases hss : f.ssat with
      | none =>
        refine looks_pure fun w => ?_
        have : (MFile.value f).ctx (w.dev hd) = none := by
          unfold OleFile.ctx MFile.value; rw [hs, hss]; rfl
        simp only [Option.bind_some, this]
      | some ssat =>
        refine looks_world fun dev => ⟨_, looks_pure fun _ => rfl, fun w hw => ?_⟩
        have : (MFile.value f).ctx (w.dev hd) = some ⟨f.io, dev, sat.table, ssat.table⟩ := by
          unfold OleFile.ctx MFile.value; rw [hs, hss, hw]; rfl
        simp only [Option.bind_some, this]
        rfl

/-! ### The calls that give an item -/

/-- The block of an item that was given. -/
def givenBlocks : Res (Option MItem) → List Nat
  | .ok (some it) => [it.block]
  | _ => []

/-- A given item without its blocks. -/
def givenValue : Res (Option MItem) → Res (Option Item)
  | .ok (some it) => .ok (some it.pos.item)
  | .ok none => .ok none
  | .err => .err
  | .ub => .ub
  | .hang => .hang

/-- What is known of an item that was given. -/
def GivenOk (t : MTree) (ptrs : MPtrs) (r : Res (Option MItem)) : Prop :=
  ∀ it, r = .ok (some it) → it.pos.tree = t ∧ it.pos.node ∈ t.all ∧ it.ptrs = ptrs ∧ it.offset = 0

/-- A call that gives an item: it takes the block of the item, and with memory for every request
  gives what `v` says; it gives an error instead if the next request is refused. -/
structure Gives (pre : List Nat) (m : Mem σ (Res (Option MItem))) (v : Res (Option Item))
    (Q : Res (Option MItem) → Prop) : Prop where
  call : Call pre m (fun r => givenBlocks r ++ pre) Q
  value : ∀ s, At m s (.ok v) s givenValue
  honest : ∀ s h, (m s h).2.1 = s ∧
    ∀ r, (m s h).1 = .ok r → givenValue r = v ∨ r = .err ∧ h.grant h.asked = false

theorem honest_pure {r : Res (Option MItem)} {v : Res (Option Item)} (hv : v = givenValue r) (s : σ)
    (h : Heap) : ((pure r : Mem σ (Res (Option MItem))) s h).2.1 = s ∧
      ∀ r', ((pure r : Mem σ (Res (Option MItem))) s h).1 = .ok r' →
        givenValue r' = v ∨ r' = .err ∧ h.grant h.asked = false :=
  ⟨rfl, fun r' hr => (by cases hr; exact .inl hv.symm)⟩

theorem honest_looks {m : Mem σ α} {k : α → Mem σ (Res (Option MItem))} {a : α}
    {v : Res (Option Item)} (hm : Looks pre m (fun _ => a))
    (hk : ∀ s h, (k a s h).2.1 = s ∧
      ∀ r, (k a s h).1 = .ok r → givenValue r = v ∨ r = .err ∧ h.grant h.asked = false)
    (s : σ) (h : Heap) : ((m >>= k) s h).2.1 = s ∧
      ∀ r, ((m >>= k) s h).1 = .ok r → givenValue r = v ∨ r = .err ∧ h.grant h.asked = false := by
  obtain ⟨h', e, g, a⟩ := hm.gives s h
  rw [mem_bind]
  unfold Mem.bind
  rw [e, ← g, ← a]
  exact hk s h'

theorem memMakeItem_gives {r : Res (Option MPos)} {t : MTree} (hr : FoundIn t r) (hw : Within t pre)
    (ptrs : MPtrs) : Gives pre (memMakeItem ptrs r : Mem σ (Res (Option MItem))) (found r)
      (GivenOk t ptrs) := by
  cases r with
  | ok o =>
    cases o with
    | none =>
      exact ⟨call_pure (.refl _) fun _ h => (by cases h), fun s => at_pure rfl, honest_pure rfl⟩
    | some p =>
      obtain ⟨h1, h2⟩ := hr p rfl
      unfold memMakeItem
      dsimp only
      have hinit : Triple pre (memItemInit ptrs p : Mem σ MItem) (fun it => it.block :: pre)
          (·.Perm pre) := by
        unfold memItemInit
        refine triple_bind (triple_alloc (.refl _)) fun b => ?_
        exact triple_use' (List.mem_cons_of_mem _ (hw _ h2).1) (triple_pure (.refl _))
      have hens : Ensures (memItemInit ptrs p : Mem σ MItem) (fun it => it.ptrs = ptrs ∧ it.pos = p ∧
          it.offset = 0) := by
        unfold memItemInit
        exact ensures_bind (ensures_true _) fun _ _ => ensures_bind (ensures_true _) fun _ _ =>
          ensures_pure ⟨rfl, rfl, rfl⟩
      have htr : Tracks (memItemInit ptrs p : Mem σ MItem) (.ok p) (fun _ => true) (·.pos) := by
        unfold memItemInit
        refine tracks_step (v := .ok ()) (w := fun _ => .ok p) tracks_alloc fun b _ => ?_
        exact tracks_quiet (quiet_use _) (tracks_ret rfl rfl)
      refine ⟨⟨stage_try hinit (safe_tracks htr trivial) hens (stage_pure (.refl _))
        fun it hit => stage_pure (.refl _), ?_⟩, ?_, ?_⟩
      · refine ensures_try hens (ensures_pure fun _ h => (by cases h)) fun it hit => ensures_pure ?_
        intro it' h
        cases h
        exact ⟨by rw [hit.2.1, h1], by rw [hit.2.1]; exact h2, hit.1, hit.2.2⟩
      · intro s h ha
        have : memItemInit ptrs p s h = (.ok ⟨h.asked, ptrs, p, 0⟩, s, (memItemInit ptrs p s h).2.2) ∧
            (memItemInit ptrs p s h).2.2.grant = h.grant := by
          have hq := (quiet_use (σ := σ) p.node.block s
            { h with asked := h.asked + 1, live := h.asked :: h.live })
          unfold memItemInit
          rw [mem_bind]
          unfold Mem.bind Mem.alloc
          rw [if_pos (ha _)]
          dsimp only
          rw [mem_bind]
          unfold Mem.bind
          revert hq
          rcases Mem.use p.node.block s { h with asked := h.asked + 1, live := h.asked :: h.live }
            with ⟨r, s', h'⟩
          intro hq
          obtain ⟨e1, e2, e3⟩ := hq
          dsimp only at e1 e2 e3
          subst e1 e2
          exact ⟨rfl, e3⟩
        rw [mem_bind]
        unfold Mem.bind Mem.attempt
        rw [this.1]
        exact ⟨(ample_congr this.2).2 ha, rfl, rfl⟩
      · intro s h
        rw [mem_bind]
        unfold Mem.bind Mem.attempt memItemInit
        rw [mem_bind]
        unfold Mem.bind Mem.alloc
        by_cases hg : h.grant h.asked = true
        · rw [if_pos hg]
          dsimp only
          rw [mem_bind]
          unfold Mem.bind
          have hq := (quiet_use (σ := σ) p.node.block s
            { h with asked := h.asked + 1, live := h.asked :: h.live })
          revert hq
          rcases Mem.use p.node.block s { h with asked := h.asked + 1, live := h.asked :: h.live }
            with ⟨r, s', h'⟩
          intro hq
          obtain ⟨e1, e2, e3⟩ := hq
          dsimp only at e1 e2 e3
          subst e1 e2
          exact ⟨rfl, fun r hr => (by cases hr; exact .inl rfl)⟩
        · rw [if_neg hg]
          exact ⟨rfl, fun r hr => (by cases hr; exact .inr ⟨rfl, by simpa using hg⟩)⟩
  | err => exact ⟨call_pure (.refl _) fun _ h => (by cases h), fun s => at_pure rfl, honest_pure rfl⟩
  | ub => exact ⟨call_pure (.refl _) fun _ h => (by cases h), fun s => at_pure rfl, honest_pure rfl⟩
  | hang => exact ⟨call_pure (.refl _) fun _ h => (by cases h), fun s => at_pure rfl, honest_pure rfl⟩

theorem gives_use {b : Nat} {k : Unit → Mem σ (Res (Option MItem))} {v : Res (Option Item)}
    {Q : Res (Option MItem) → Prop} (hb : b ∈ pre) (hk : Gives pre (k ()) v Q) :
    Gives pre (Mem.use b >>= k) v Q :=
  ⟨call_use hb hk.call, fun s => at_quiet (quiet_use _) (hk.value s),
    honest_looks (looks_touch hb) hk.honest⟩

theorem gives_looks {m : Mem σ α} {k : α → Mem σ (Res (Option MItem))} {a : α}
    {v : Res (Option Item)} {Q : Res (Option MItem) → Prop} (hm : Looks pre m (fun _ => a))
    (hk : Gives pre (k a) v Q) : Gives pre (m >>= k) v Q := by
  refine ⟨⟨stage_bind hm.stage hm.ensures fun b hb => ?_,
    ensures_bind hm.ensures fun b hb => ?_⟩, fun s h ha => ?_,
    honest_looks hm hk.honest⟩
  · obtain ⟨_, rfl⟩ := hb; exact hk.call.stage
  · obtain ⟨_, rfl⟩ := hb; exact hk.call.ensures
  · obtain ⟨h', e, g, -⟩ := hm.gives s h
    rw [mem_bind]
    unfold Mem.bind
    rw [e]
    exact hk.value s h' ((ample_congr g).2 ha)

theorem gives_pure {r : Res (Option MItem)} {v : Res (Option Item)}
    {Q : Res (Option MItem) → Prop} (hr : givenBlocks r = []) (hv : v = givenValue r) (hq : Q r) :
    Gives pre (pure r : Mem σ (Res (Option MItem))) v Q :=
  ⟨call_pure (by rw [hr]; exact .refl _) hq, fun s => at_pure (by rw [hv]), honest_pure hv⟩

theorem gives_congr {m : Mem σ (Res (Option MItem))} {v w : Res (Option Item)}
    {Q : Res (Option MItem) → Prop} (h : Gives pre m v Q) (hv : v = w) : Gives pre m w Q := hv ▸ h

theorem memSubItem_gives (h : Reach pre f it) (index : Int) :
    Gives pre (memSubItem it index : Mem σ (Res (Option MItem)))
      (getSubItem (MTreeValue it.pos.tree) it.pos.item index >>= fun c => .ok (some c))
      (GivenOk it.pos.tree it.ptrs) := by
  unfold memSubItem getSubItem
  refine gives_use h.item (gives_use (h.within _ h.node).1 ?_)
  split
  · exact gives_pure rfl rfl fun _ h => (by cases h)
  show Gives pre _ ((match (it.pos.tree.kids it.pos.key)[index.toNat]? with
    | some c => Res.ok (Item.ofEntry c)
    | none => .err) >>= _) _
  cases hc : (it.pos.tree.kids it.pos.key)[index.toNat]? with
  | none => exact gives_pure rfl rfl fun _ h => (by cases h)
  | some c =>
    obtain ⟨n, hn, he, hin⟩ := nodeOf_linked h.linked (List.mem_of_getElem? hc)
    dsimp only
    rw [hn]
    dsimp only
    refine gives_congr (memMakeItem_gives (t := it.pos.tree) ?_ h.within it.ptrs) ?_
    · intro p hp; cases hp; exact ⟨rfl, hin⟩
    · show Res.ok (some (MPos.item _)) = _
      unfold MPos.item
      dsimp only
      rw [he]
      rfl

theorem memSubItemByName_gives (h : Reach pre f it) (cmp : List α → Bytes → Option Bool)
    (name : List α) :
    Gives pre (memSubItemByName cmp it name : Mem σ (Res (Option MItem)))
      (getSubItemByName cmp (MTreeValue it.pos.tree) it.pos.item name)
      (GivenOk it.pos.tree it.ptrs) := by
  unfold memSubItemByName
  obtain ⟨v, h1, h2, h3⟩ := memSubNodeByName_looks (σ := σ) h.linked h.within h.node cmp name
  exact gives_use h.item (gives_use h.io (gives_looks h1
    (gives_congr (memMakeItem_gives h2 h.within it.ptrs) h3)))

theorem memSubItemByPath_gives [DecidableEq α] (h : Reach pre f it) (dec : Decoder α)
    (cmp : List α → Bytes → Option Bool) (s : List α) :
    Gives pre (memSubItemByPath dec cmp it s : Mem σ (Res (Option MItem)))
      (itemByPath dec cmp (some (MTreeValue it.pos.tree)) (some it.pos.item) s)
      (GivenOk it.pos.tree it.ptrs) := by
  unfold memSubItemByPath
  obtain ⟨v, h1, h2, h3⟩ := memNodeByPath_looks (σ := σ) h.linked h.within h.node dec cmp s
  exact gives_use h.item (gives_use h.io (gives_looks h1
    (gives_congr (memMakeItem_gives h2 h.within it.ptrs) h3)))

/-- What is known of an item that a file gave. -/
def FileGivenOk (f : MFile) (r : Res (Option MItem)) : Prop :=
  ∀ it, r = .ok (some it) → ItemOk f it ∧ it.offset = 0

theorem GivenOk.file {t : MTree} (hf : f.tree = some t) {r : Res (Option MItem)}
    (h : GivenOk t f.ptrs r) : FileGivenOk f r := by
  intro it hit
  obtain ⟨h1, h2, h3, h4⟩ := h it hit
  exact ⟨⟨by rw [h1]; exact hf, by rw [h1]; exact h2, h3⟩, h4⟩

theorem Gives.weaken {m : Mem σ (Res (Option MItem))} {v : Res (Option Item)}
    {P Q : Res (Option MItem) → Prop} (h : Gives pre m v P) (hq : ∀ r, P r → Q r) : Gives pre m v Q :=
  ⟨⟨h.call.stage, fun s hp a ha => hq a (h.call.ensures s hp a ha)⟩, h.value, h.honest⟩

theorem memRootItem_gives (hb : ∀ b ∈ fileBlocks f, b ∈ pre) :
    Gives pre (memRootItem f : Mem σ (Res (Option MItem)))
      (.ok (rootItem (MFile.value f).tree)) (FileGivenOk f) := by
  unfold memRootItem
  refine gives_use (hb _ (by simp [fileBlocks])) ?_
  unfold MFile.value
  dsimp only
  cases h : f.tree with
  | none => exact gives_pure rfl rfl fun _ h => (by cases h)
  | some t =>
    refine (gives_congr (memMakeItem_gives (t := t) ?_ (file_within h hb) f.ptrs) rfl).weaken
      fun r hr => hr.file h
    intro p hp; cases hp; exact ⟨rfl, List.mem_cons_self⟩

theorem memFileItemByPath_gives [DecidableEq α] (ht : TreeOk f.tree)
    (hb : ∀ b ∈ fileBlocks f, b ∈ pre) (dec : Decoder α) (cmp : List α → Bytes → Option Bool)
    (s : List α) :
    Gives pre (memFileItemByPath dec cmp f s : Mem σ (Res (Option MItem)))
      (itemByPath dec cmp (MFile.value f).tree (rootItem (MFile.value f).tree) s)
      (FileGivenOk f) := by
  unfold memFileItemByPath
  refine gives_use (hb _ (by simp [fileBlocks])) (gives_use (hb _ (by simp [fileBlocks])) ?_)
  unfold MFile.value
  dsimp only
  cases h : f.tree with
  | none =>
    obtain ⟨v, h1, h2, h3⟩ := memNodeByPath_null (σ := σ) (pre := pre) dec cmp s
    refine gives_looks h1 ?_
    show Gives pre _ (itemByPath dec cmp none none s) _
    rw [← h3]
    cases v with
    | ok o =>
      cases o with
      | some p => exact absurd rfl (h2 p)
      | none => exact gives_pure rfl rfl fun _ h => (by cases h)
    | err => exact gives_pure rfl rfl fun _ h => (by cases h)
    | ub => exact gives_pure rfl rfl fun _ h => (by cases h)
    | hang => exact gives_pure rfl rfl fun _ h => (by cases h)
  | some t =>
    have hw := file_within h hb
    obtain ⟨v, h1, h2, h3⟩ := memNodeByPath_looks (σ := σ) (p := ⟨t, none, t.root⟩) (ht t h) hw
      List.mem_cons_self dec cmp s
    exact (gives_looks h1 (gives_congr (memMakeItem_gives h2 hw f.ptrs) h3)).weaken
      fun r hr => hr.file h

end Lemmas
end Olecf
