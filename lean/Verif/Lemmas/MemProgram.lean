import Verif.Lemmas.MemItem

/-! Programs with items. -/

namespace Olecf
namespace Lemmas

open Olecf.Spec Olecf.Props

variable {σ α β γ δ : Type}

/-! ### Calls that only look -/

/-- The program neither takes nor gives back memory, touches only the blocks `pre`, and computes
  `v`. -/
structure Looks (pre : List Nat) (m : Mem σ α) (v : σ → α) : Prop where
  gives : ∀ s h, ∃ h', m s h = (.ok (v s), s, h') ∧ h'.grant = h.grant ∧ h'.asked = h.asked
  blocks : Triple pre m (fun _ => pre) (fun _ => False)

theorem looks_pure {pre : List Nat} {a : α} {v : σ → α} (h : ∀ s, v s = a) :
    Looks pre (pure a : Mem σ α) v :=
  ⟨fun s hp => ⟨hp, by rw [h s]; exact ⟨rfl, rfl, rfl⟩⟩, triple_pure (.refl _)⟩

theorem looks_bind {pre : List Nat} {m : Mem σ α} {k : α → Mem σ β} {v : σ → α} {w : σ → β}
    (hm : Looks pre m v) (hk : ∀ a, (∃ s, v s = a) → ∃ w', Looks pre (k a) w' ∧ ∀ s, v s = a → w' s = w s) :
    Looks pre (m >>= k) w := by
  constructor
  · intro s h
    obtain ⟨h1, e1, g1, a1⟩ := hm.gives s h
    obtain ⟨w', hw, hww⟩ := hk (v s) ⟨s, rfl⟩
    obtain ⟨h2, e2, g2, a2⟩ := hw.gives s h1
    refine ⟨h2, ?_, g2.trans g1, a2.trans a1⟩
    rw [mem_bind]
    unfold Mem.bind
    rw [e1]
    dsimp only
    rw [e2, hww s rfl]
  · refine triple_bind_val (P := fun a => ∃ s, v s = a) hm.blocks ?_ fun a ha => ?_
    · intro s h a ha
      obtain ⟨h1, e1, g1⟩ := hm.gives s h
      rw [e1] at ha
      exact ⟨s, Res.ok.inj ha⟩
    · obtain ⟨w', hw, -⟩ := hk a ha
      exact hw.blocks

theorem looks_const {pre : List Nat} {m : Mem σ α} {k : α → Mem σ β} {v : α} {w : σ → β}
    (hm : Looks pre m (fun _ => v)) (hk : Looks pre (k v) w) : Looks pre (m >>= k) w := by
  refine looks_bind hm fun a ha => ?_
  obtain ⟨_, rfl⟩ := ha
  exact ⟨w, hk, fun _ _ => rfl⟩

theorem looks_touch {pre : List Nat} {b : Nat} (hb : b ∈ pre) :
    Looks pre (Mem.use b : Mem σ Unit) (fun _ => ()) := by
  refine ⟨fun s h => ?_, triple_use hb⟩
  unfold Mem.use
  split
  · exact ⟨h, rfl, rfl, rfl⟩
  · exact ⟨_, rfl, rfl, rfl⟩

theorem looks_use {pre : List Nat} {b : Nat} {k : Unit → Mem σ β} {w : σ → β} (hb : b ∈ pre)
    (hk : Looks pre (k ()) w) : Looks pre (Mem.use b >>= k) w :=
  looks_bind (looks_touch hb) fun _ _ => ⟨w, hk, fun _ _ => rfl⟩

theorem looks_useOpt {pre : List Nat} {b : Option Nat} {k : Unit → Mem σ β} {w : σ → β}
    (hb : ∀ x ∈ b.toList, x ∈ pre) (hk : Looks pre (k ()) w) : Looks pre (Mem.useOpt b >>= k) w := by
  cases b with
  | none => exact hk
  | some b => exact looks_use (hb b (by simp)) hk

theorem looks_forEach {pre : List Nat} {f : α → Mem σ Unit} {k : Unit → Mem σ β} {w : σ → β}
    {l : List α} (hf : ∀ a ∈ l, Looks pre (f a) (fun _ => ())) (hk : Looks pre (k ()) w) :
    Looks pre (Mem.forEach f l >>= k) w := by
  have : Looks pre (Mem.forEach f l) (fun _ => ()) := by
    induction l with
    | nil => exact looks_pure fun _ => rfl
    | cons a l ih =>
      unfold Mem.forEach
      exact looks_bind (hf a (by simp)) fun _ _ =>
        ⟨_, ih fun b hb => hf b (List.mem_cons_of_mem _ hb), fun _ _ => rfl⟩
  exact looks_bind this fun _ _ => ⟨w, hk, fun _ _ => rfl⟩

theorem looks_world {pre : List Nat} {g : World → α} {k : α → Mem World β} {w : World → β}
    (hk : ∀ a, ∃ w', Looks pre (k a) w' ∧ ∀ s, g s = a → w' s = w s) :
    Looks pre (worldStep (fun s => (g s, s)) >>= k) w :=
  looks_bind (v := g) ⟨fun _ h => ⟨h, rfl, rfl, rfl⟩, triple_world⟩ fun a _ => hk a

theorem Looks.stage {pre : List Nat} {m : Mem σ α} {v : σ → α} (h : Looks pre m v) :
    Stage pre m (fun _ => pre) := by
  refine ⟨h.blocks, fun s hp => ?_⟩
  obtain ⟨h', e, -⟩ := h.gives s hp
  rw [e]; trivial

theorem Looks.ensures {pre : List Nat} {m : Mem σ α} {v : σ → α} (h : Looks pre m v) :
    Ensures m (fun a => ∃ s, a = v s) := by
  intro s hp a ha
  obtain ⟨h', e, -⟩ := h.gives s hp
  rw [e] at ha
  exact ⟨s, (Res.ok.inj ha).symm⟩

/-! ### Lookups -/

/-- The result of a lookup without its blocks. -/
def found : Res (Option MPos) → Res (Option Item)
  | .ok (some p) => .ok (some p.item)
  | .ok none => .ok none
  | .err => .err
  | .ub => .ub
  | .hang => .hang

/-- The tree without its blocks. -/
def MTreeValue (t : MTree) : Tree := ⟨t.root.value.entry, t.kids⟩

/-- A result of a lookup is a node of the tree. -/
def FoundIn (t : MTree) (r : Res (Option MPos)) : Prop :=
  ∀ p, r = .ok (some p) → p.tree = t ∧ p.node ∈ t.all

/-- The blocks of the tree are among `pre`. -/
def Within (t : MTree) (pre : List Nat) : Prop :=
  ∀ n ∈ t.all, n.block ∈ pre ∧ n.value.block ∈ pre ∧ ∀ b ∈ n.value.name.toList, b ∈ pre

theorem within_blocks {t : MTree} {pre : List Nat} (h : ∀ b ∈ treeBlocks (some t), b ∈ pre) :
    Within t pre := by
  intro n hn
  have key : ∀ b ∈ nodeBlocks n, b ∈ pre := fun b hb => h b (List.mem_flatMap.2 ⟨n, hn, hb⟩)
  exact ⟨key _ (by simp [nodeBlocks]), key _ (by simp [nodeBlocks, entryBlocks]),
    fun b hb => key _ (by simp [nodeBlocks, entryBlocks]; exact .inr (.inr (by simpa using hb)))⟩

theorem nodeOf_linked {t : MTree} (ht : Linked t.nodes t.kids) {key : NodeKey} {c : DirEntry}
    (hc : c ∈ t.kids key) : ∃ n, t.nodeOf c = some n ∧ n.value.entry = c ∧ n ∈ t.all := by
  obtain ⟨n, hn, he⟩ := ht key c hc
  exact ⟨n, hn, he, List.mem_cons_of_mem _ (List.mem_of_find?_eq_some hn)⟩

theorem memNameLoop_looks {pre : List Nat} {t : MTree} (ht : Linked t.nodes t.kids)
    (hw : Within t pre) (cmp : List α → Bytes → Option Bool) (name : List α) (key : NodeKey) :
    ∀ l : List DirEntry, (∀ c ∈ l, c ∈ t.kids key) →
      ∃ v, Looks pre (memNameLoop cmp name t l : Mem σ (Res (Option MPos))) (fun _ => v) ∧
        FoundIn t v ∧ found v = (match nameLoop cmp name l with
          | .ok (some c) => .ok (some (.ofEntry c))
          | .ok none => .ok none
          | .err => .err
          | .ub => .ub
          | .hang => .hang)
  | [], _ => ⟨.ok none, looks_pure fun _ => rfl, fun p h => (by cases h), rfl⟩
  | c :: rest, hl => by
    obtain ⟨n, hn, he, hin⟩ := nodeOf_linked ht (hl c (by simp))
    obtain ⟨v, h1, h2, h3⟩ := memNameLoop_looks ht hw cmp name key rest
      fun c hc => hl c (List.mem_cons_of_mem _ hc)
    unfold memNameLoop nameLoop
    rw [hn]
    dsimp only
    obtain ⟨b1, b2, b3⟩ := hw n hin
    cases hc : cmp name c.name with
    | none =>
      exact ⟨.err, looks_use b1 (looks_use b2 (looks_useOpt b3 (looks_pure fun _ => rfl))),
        fun p h => (by cases h), rfl⟩
    | some b =>
      cases b with
      | true =>
        refine ⟨.ok (some ⟨t, some c.id, n⟩),
          looks_use b1 (looks_use b2 (looks_useOpt b3 (looks_pure fun _ => rfl))), ?_, ?_⟩
        · intro p h; cases h; exact ⟨rfl, hin⟩
        · show Res.ok (some (MPos.item _)) = _
          unfold MPos.item
          dsimp only
          rw [he]
          rfl
      | false =>
        exact ⟨v, looks_use b1 (looks_use b2 (looks_useOpt b3 h1)), h2, h3⟩

theorem memSubNodeByName_looks {pre : List Nat} {p : MPos} (ht : Linked p.tree.nodes p.tree.kids)
    (hw : Within p.tree pre) (hp : p.node ∈ p.tree.all) (cmp : List α → Bytes → Option Bool)
    (name : List α) :
    ∃ v, Looks pre (memSubNodeByName cmp p name : Mem σ (Res (Option MPos))) (fun _ => v) ∧
      FoundIn p.tree v ∧ found v = getSubItemByName cmp (MTreeValue p.tree) p.item name := by
  obtain ⟨v, h1, h2, h3⟩ := memNameLoop_looks (σ := σ) ht hw cmp name p.key (p.tree.kids p.key)
    fun _ h => h
  refine ⟨v, looks_use (hw _ hp).1 h1, h2, ?_⟩
  rw [h3]
  unfold getSubItemByName
  show _ = (nameLoop cmp name (p.tree.kids p.key) >>= fun x => _)
  cases nameLoop cmp name (p.tree.kids p.key) with
  | ok o => cases o <;> rfl
  | err => rfl
  | ub => rfl
  | hang => rfl

theorem memPathLoop_looks {pre : List Nat} {t : MTree} (ht : Linked t.nodes t.kids)
    (hw : Within t pre) (dec : Decoder α) (cmp : List α → Bytes → Option Bool) (s : List α) :
    ∀ (fuel : Nat) (p : MPos), p.tree = t → p.node ∈ t.all → ∀ (i : Nat) (b : Bool),
      ∃ v, Looks pre (memPathLoop dec cmp s fuel (some p) i b : Mem σ (Res (Option MPos)))
          (fun _ => v) ∧ FoundIn t v ∧
        found v = pathLoop dec cmp (some (MTreeValue t)) s fuel (some p.item) i b := by
  intro fuel
  induction fuel with
  | zero =>
    intro p hpt hp i b
    unfold memPathLoop pathLoop
    split
    · exact ⟨.hang, looks_pure fun _ => rfl, fun p h => (by cases h), rfl⟩
    · cases b
      · exact ⟨.ok none, looks_pure fun _ => rfl, fun p h => (by cases h), rfl⟩
      · exact ⟨.ok (some p), looks_pure fun _ => rfl, fun q h => (by cases h; exact ⟨hpt, hp⟩), rfl⟩
  | succ fuel ih =>
    intro p hpt hp i b
    unfold memPathLoop pathLoop
    split
    · dsimp only
      cases hsc : scanSegment dec s s.length i with
      | ok x =>
        obtain ⟨e, hit⟩ := x
        dsimp only
        generalize e - (i + if hit = true then 1 else 0) = len
        split
        · exact ⟨.ok none, looks_pure fun _ => rfl, fun p h => (by cases h), rfl⟩
        · generalize ((s.drop i).take _) = name
          subst hpt
          obtain ⟨v, h1, h2, h3⟩ := memSubNodeByName_looks (σ := σ) ht hw hp cmp name
          rw [← h3]
          cases v with
          | ok o =>
            cases o with
            | some c =>
              obtain ⟨k1, k2⟩ := h2 c rfl
              obtain ⟨v', j1, j2, j3⟩ := ih c k1 k2 e true
              exact ⟨v', looks_const h1 j1, j2, j3⟩
            | none =>
              exact ⟨.ok none, looks_const h1 (looks_pure fun _ => rfl), fun p h => (by cases h), rfl⟩
          | err =>
            exact ⟨.err, looks_const h1 (looks_pure fun _ => rfl), fun p h => (by cases h), rfl⟩
          | ub =>
            exact ⟨.ub, looks_const h1 (looks_pure fun _ => rfl), fun p h => (by cases h), rfl⟩
          | hang =>
            exact ⟨.hang, looks_const h1 (looks_pure fun _ => rfl), fun p h => (by cases h), rfl⟩
      | err => exact ⟨.err, looks_pure fun _ => rfl, fun p h => (by cases h), rfl⟩
      | ub => exact ⟨.ub, looks_pure fun _ => rfl, fun p h => (by cases h), rfl⟩
      | hang => exact ⟨.hang, looks_pure fun _ => rfl, fun p h => (by cases h), rfl⟩
    · cases b
      · exact ⟨.ok none, looks_pure fun _ => rfl, fun p h => (by cases h), rfl⟩
      · exact ⟨.ok (some p), looks_pure fun _ => rfl, fun q h => (by cases h; exact ⟨hpt, hp⟩), rfl⟩

theorem memPathLoop_null {pre : List Nat} (dec : Decoder α) (cmp : List α → Bytes → Option Bool)
    (s : List α) (fuel i : Nat) (b : Bool) :
    ∃ v, Looks pre (memPathLoop dec cmp s fuel none i b : Mem σ (Res (Option MPos))) (fun _ => v) ∧
      (∀ p, v ≠ .ok (some p)) ∧ found v = pathLoop dec cmp none s fuel none i b := by
  unfold memPathLoop pathLoop
  split
  · cases fuel with
    | zero => exact ⟨.hang, looks_pure fun _ => rfl, fun p h => (by cases h), rfl⟩
    | succ fuel =>
      dsimp only
      cases scanSegment dec s s.length i with
      | ok x =>
        obtain ⟨e, hit⟩ := x
        dsimp only
        generalize e - (i + if hit = true then 1 else 0) = len
        split
        · exact ⟨.ok none, looks_pure fun _ => rfl, fun p h => (by cases h), rfl⟩
        · exact ⟨.err, looks_pure fun _ => rfl, fun p h => (by cases h), rfl⟩
      | err => exact ⟨.err, looks_pure fun _ => rfl, fun p h => (by cases h), rfl⟩
      | ub => exact ⟨.ub, looks_pure fun _ => rfl, fun p h => (by cases h), rfl⟩
      | hang => exact ⟨.hang, looks_pure fun _ => rfl, fun p h => (by cases h), rfl⟩
  · cases b
    · exact ⟨.ok none, looks_pure fun _ => rfl, fun p h => (by cases h), rfl⟩
    · exact ⟨.err, looks_pure fun _ => rfl, fun p h => (by cases h), rfl⟩

theorem memNodeByPath_looks [DecidableEq α] {pre : List Nat} {p : MPos}
    (ht : Linked p.tree.nodes p.tree.kids) (hw : Within p.tree pre) (hp : p.node ∈ p.tree.all)
    (dec : Decoder α) (cmp : List α → Bytes → Option Bool) (s : List α) :
    ∃ v, Looks pre (memNodeByPath dec cmp (some p) s : Mem σ (Res (Option MPos))) (fun _ => v) ∧
      FoundIn p.tree v ∧
      found v = itemByPath dec cmp (some (MTreeValue p.tree)) (some p.item) s := by
  unfold memNodeByPath itemByPath
  dsimp only
  split
  · exact ⟨.ok (some p), looks_pure fun _ => rfl, fun q h => (by cases h; exact ⟨rfl, hp⟩), rfl⟩
  · exact memPathLoop_looks ht hw dec cmp s _ p rfl hp _ _

theorem memNodeByPath_null [DecidableEq α] {pre : List Nat} (dec : Decoder α)
    (cmp : List α → Bytes → Option Bool) (s : List α) :
    ∃ v, Looks pre (memNodeByPath dec cmp none s : Mem σ (Res (Option MPos))) (fun _ => v) ∧
      (∀ p, v ≠ .ok (some p)) ∧ found v = itemByPath dec cmp none none s := by
  unfold memNodeByPath itemByPath
  dsimp only
  split
  · exact ⟨.err, looks_pure fun _ => rfl, fun q h => (by cases h), rfl⟩
  · exact memPathLoop_null dec cmp s _ _ _

end Lemmas
end Olecf
