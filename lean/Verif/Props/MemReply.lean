import Verif.Props.MemItem

/-
  C96, C97: what the replies to programs with items are when memory is short.
-/

namespace Olecf.Props
open Olecf Olecf.Spec Olecf.Lemmas

theorem newRun_ok {cmp : Bytes → Bytes → Option Bool} {steps : List Step} {w : World}
    {h : Heap} (hs : Sound h) (hc : CarefulRun cmp steps w h) {p : Program} {as : List Reply}
    {w' : World} {h' : Heap} (hr : newRun cmp steps w h = (.ok (p, as), w', h')) : ProgOk p := by
  obtain ⟨-, h2⟩ := newRun_heap cmp steps w hs hc
  rw [hr] at h2
  rcases h2 with ⟨h2, -, -⟩ | ⟨p', as', h2, -, -, -, h5⟩
  · cases h2
  · cases h2; exact h5

/-- C96: after any program that follows the rule of C95, whichever requests for memory were refused to it,
  a step that is not a call on the file object — a look-up, a call on an item, the free of an item —
  replies what the contents of the file object and of the items as they are say, and changes those in
  the same way; or it fails because the next request is refused, and then changes nothing.  In no case
  is an item, a number or a content made up, or reported as missing, for lack of memory. -/
theorem C96_honest (cmp : Bytes → Bytes → Option Bool) (steps : List Step) (w : World) {h : Heap}
    (hs : Sound h) (hc : CarefulRun cmp steps w h) {p : Program} {as : List Reply} {w' : World}
    {h' : Heap} (hr : newRun cmp steps w h = (.ok (p, as), w', h')) {s : Step} (ha : s.Allowed p)
    (hn : ∀ op, s ≠ .file op) {p' : Program} {a : Reply} (he : (s.run cmp p w' h').1 = .ok (p', a)) :
    (s.run cmp p w' h').2.1 = w' ∧
    ((programValue p' w', a) = s.answer cmp (programValue p w') ∨
      (p', a) = (p, .item .err) ∧ h'.grant h'.asked = false) := by
  obtain ⟨h1, h2⟩ := step_honest cmp (newRun_ok hs hc hr) ha hn w' h'
  refine ⟨h1, ?_⟩
  rcases h2 _ he with ⟨e1, e2⟩ | h2
  · exact .inl (Prod.ext e1 e2)
  · exact .inr h2

theorem seek_defined {d : DirEntry} {cur offset : Int} (whence : Whence) (h1 : inOff64 offset)
    (h2 : inOff64 (offset + cur)) (h3 : inOff64 (offset + d.size)) :
    (streamSeek d cur offset whence).1.Defined := by
  unfold streamSeek
  split
  · trivial
  split
  · trivial
  split
  · trivial
  cases whence with
  | set => dsimp only; rw [if_neg (not_not_intro h1)]; split <;> trivial
  | cur => dsimp only; rw [if_neg (not_not_intro h2)]; split <;> trivial
  | fromEnd => dsimp only; rw [if_neg (not_not_intro h3)]; split <;> trivial
  | other => dsimp only; rw [if_neg (not_not_intro h1)]; split <;> trivial

theorem given_defined {p : PureProgram} {r : Res (Option Item)} (h : r.Defined) :
    (p.given r).2.Defined := by
  unfold PureProgram.given
  split <;> exact h

theorem byPath_defined {α : Type} [DecidableEq α] {dec : Decoder α}
    (cmp : List α → Bytes → Option Bool) (t : Option Tree) (it : Option Item) (s : List α)
    (hdec : ∀ s c n, s ≠ [] → dec.step s = some (c, n) →
      0 < n ∧ n ≤ s.length ∧ (EndsComponent c → n = 1))
    (hi : it = rootItem t) : (itemByPath dec cmp t it s).Defined := by
  subst hi
  cases t with
  | some t => exact C22_terminates dec cmp t _ s hdec
  | none =>
    have key := C22_terminates dec cmp ⟨streamEntry 0 0, fun _ => []⟩ ⟨none, streamEntry 0 0⟩ s hdec
    unfold itemByPath at key ⊢
    show (if s.length = 0 ∨ s.length = 1 then Res.err else
      pathLoop dec cmp none s s.length none _ false).Defined
    split
    · trivial
    · rename_i hlen
      rw [if_neg hlen] at key
      obtain ⟨n, hn⟩ : ∃ n, s.length = n + 1 := ⟨s.length - 1, by omega⟩
      have hi : (if s.head? = some dec.sep then 1 else 0) < s.length := by split <;> omega
      revert key hi
      generalize (if s.head? = some dec.sep then 1 else 0) = i
      intro key hi
      unfold pathLoop at key ⊢
      rw [if_pos hi] at key ⊢
      revert key
      generalize hm : s.length = m
      rw [hn] at hm
      subst hm
      dsimp only
      cases scanSegment dec s (n + 1) i with
      | ok r =>
        intro _
        dsimp only
        by_cases h0 : r.1 - (i + if r.2 = true then 1 else 0) = 0
        · rw [if_pos h0]; trivial
        · rw [if_neg h0]; trivial
      | err => intro _; trivial
      | ub => exact fun key => key
      | hang => exact fun key => key

/-- Neither the offset, nor from the position, nor from the end of the item, is it out of the range of
  `off64_t`. -/
def InRange (x : Held) (offset : Int) : Prop :=
  inOff64 offset ∧ inOff64 (offset + x.item.offset) ∧
    inOff64 (offset + x.item.pos.node.value.entry.size)

theorem answer_defined {p : Program} (hp : ProgOk p) {k : Nat} {x : Held}
    (hk : p.items[k]? = some (some x)) (hf : x.fresh = true) (w : World) (c : ItemCall)
    (hc : (Step.item k c).Contract) (hs : ∀ size, c = .read size → 4 ≤ p.file.io.shortSectorSize)
    (hq : ∀ offset whence, c = .seek offset whence → InRange x offset) :
    (c.answer (programValue p w) k (heldValue x)).2.Defined := by
  have hi := hp.items x (List.mem_of_getElem? hk) hf
  have ht : (programValue p w).state.file.tree = some (MTreeValue x.item.pos.tree) := by
    show p.file.tree.map _ = _
    rw [hi.tree]; rfl
  unfold ItemCall.answer
  cases c with
  | field g => cases g <;> trivial
  | name conv => exact hc _ _
  | count => trivial
  | sub index =>
    dsimp only
    rw [ht]
    refine given_defined ?_
    dsimp only
    unfold getSubItem
    split
    · trivial
    · cases ((MTreeValue x.item.pos.tree).kids (heldValue x).item.node)[index.toNat]? <;> trivial
  | subByName t =>
    dsimp only
    rw [ht]
    refine given_defined ?_
    dsimp only
    rcases getSubItemByName_cases t.cmp (MTreeValue x.item.pos.tree) (heldValue x).item t.units with
      ⟨_, _, _, _, _, _, h⟩ | ⟨_, h⟩ | ⟨_, _, _, _, _, _, h⟩ <;> rw [h] <;> trivial
  | subByPath t =>
    refine given_defined ?_
    rw [ht]
    exact C22_terminates _ _ _ _ _ hc
  | read size =>
    dsimp only
    generalize ho : ((programValue p w).state.file.handle.bind fun h =>
      (programValue p w).state.file.ctx ((programValue p w).state.world.dev h)) = o
    cases o with
    | none => trivial
    | some f =>
      obtain ⟨hd, -, hctx⟩ := Option.bind_eq_some_iff.1 ho
      have hfit := hp.fit x.item.pos.tree
      have hctx' : (MFile.value p.file).ctx (w.dev hd) = some f := hctx
      unfold OleFile.ctx MFile.value at hctx'
      cases hsat : p.file.sat with
      | none => rw [hsat] at hctx'; cases hctx'
      | some sat =>
        cases hssat : p.file.ssat with
        | none => rw [hsat, hssat] at hctx'; cases hctx'
        | some ssat =>
          rw [hsat, hssat] at hctx'
          cases hctx'
          have hfit := hfit sat ssat hi.tree hsat hssat
          refine C50_read_defined_partial (hfit.ctx _) (hfit.entries _ hi.node) ?_ _ _
          have := hs size rfl
          have := hfit.size
          unfold unitOf
          dsimp only
          split <;> omega
  | seek offset whence =>
    obtain ⟨h1, h2, h3⟩ := hq offset whence rfl
    exact seek_defined whence h1 h2 h3
  | position =>
    dsimp only
    unfold streamGetOffset
    split <;> trivial

/-- C97: after any program that follows the rule of C95, whichever requests for memory were refused to
  it, no step has undefined behaviour in its reply, or fails to end, when libuna keeps to its contract; for
  reads this needs short sectors of at least 4 bytes, as C50, for seeks that the sum is in the range
  of `off64_t`, as C30.  (The full claim has no such conditions, and does not hold: see
  `C50_counter_overflow_violated` and `C30_seek_overflow_violated`.) -/
theorem C97_defined_partial (cmp : Bytes → Bytes → Option Bool) (steps : List Step) (w : World)
    {h : Heap} (hs : Sound h) (hc : CarefulRun cmp steps w h) {p : Program} {as : List Reply}
    {w' : World} {h' : Heap} (hr : newRun cmp steps w h = (.ok (p, as), w', h')) {s : Step}
    (ha : s.Allowed p) (hu : s.Contract)
    (hm : ∀ k size, s = .item k (.read size) → 4 ≤ p.file.io.shortSectorSize)
    (hq : ∀ k offset whence x, s = .item k (.seek offset whence) → p.items[k]? = some (some x) →
      InRange x offset) :
    ∃ p' a, (s.run cmp p w' h').1 = .ok (p', a) ∧ a.Defined := by
  have hp := newRun_ok hs hc hr
  obtain ⟨h1, h2⟩ := newRun_heap cmp steps w hs hc
  rw [hr] at h1 h2
  rcases h2 with ⟨h2, -, -⟩ | ⟨p', as', h2, -, -, h4, -⟩
  · cases h2
  cases h2
  have hcall := step_call cmp hp ha []
  rw [List.append_nil] at hcall
  obtain ⟨-, ⟨p', a⟩, he, -⟩ := stage_outcome hcall.stage w' (rest := h.live) h1 h4
  refine ⟨p', a, he, ?_⟩
  have hhon : (∀ op, s ≠ .file op) → (s.answer cmp (programValue p w')).2.Defined → a.Defined := by
    intro hn hd
    obtain ⟨-, h2⟩ := step_honest cmp hp ha hn w' h'
    rcases h2 _ he with ⟨-, e⟩ | ⟨e, -⟩
    · have e : a = _ := e
      rw [e]; exact hd
    · cases e; trivial
  cases s with
  | file op =>
    have : Ensures ((Step.file op).run cmp p) (fun r => r.2.Defined) :=
      ensures_bind (ensures_true _) fun r _ => ensures_pure trivial
    exact this _ _ _ he
  | root => exact hhon (fun _ h => (by cases h)) (given_defined trivial)
  | path t =>
    refine hhon (fun _ h => (by cases h)) (given_defined ?_)
    exact byPath_defined _ _ _ _ hu rfl
  | item k c =>
    refine hhon (fun _ h => (by cases h)) ?_
    unfold Step.answer
    dsimp only
    rw [value_get]
    cases hk : p.items[k]? with
    | none => trivial
    | some o =>
      cases o with
      | none => trivial
      | some x =>
        exact answer_defined hp hk (ha x hk) w' c hu (fun size h => hm k size (by rw [h]))
          fun o e h => hq k o e x (by rw [h]) hk
  | free k =>
    refine hhon (fun _ h => (by cases h)) ?_
    unfold Step.answer
    dsimp only
    split <;> trivial

/-! ### Examples -/

/-- The hypotheses of `C96_honest` and `C97_defined_partial` hold of a program that opened the sample file
  and has its root item, with a request for the first sub item. -/
example : ∃ p as w' h' p' a,
    newRun cmpNone (sampleSteps.take 2) sampleWorld (emptyHeap fun _ => true) = (.ok (p, as), w', h') ∧
    (Step.item 0 (.sub 0)).Allowed p ∧ (Step.item 0 (.sub 0)).Contract ∧
    ((Step.item 0 (.sub 0)).run cmpNone p w' h').1 = .ok (p', a) ∧ a.Defined := by
  obtain ⟨p, as, w', h', x, h1, h2, h3⟩ := sample_held
  have ha : (Step.item 0 (.sub 0)).Allowed p := fun y hy => by rw [h2] at hy; cases hy; exact h3
  obtain ⟨p', a, h4, h5⟩ := C97_defined_partial cmpNone (sampleSteps.take 2) sampleWorld
    (h := emptyHeap fun _ => true) ⟨rfl, List.nodup_nil, fun _ h => by cases h⟩
    (C95_order cmpNone (steps := sampleSteps.take 2) trivial _ _) h1 ha trivial (fun _ _ h => by cases h) (fun _ _ _ _ h => by cases h)
  exact ⟨p, as, w', h', p', a, h1, ha, trivial, h4, h5⟩

/-- A file object with a root storage and no memory: the root item is an error, not a missing item. -/
example (w : World) (t : MTree) (f : MFile) (hf : f.tree = some t) :
    ((Step.root).run cmpNone ⟨f, []⟩ w { grant := fun _ => false, asked := 9, live := [f.block], bad := false }).1
      = .ok (⟨f, []⟩, .item .err) := by
  show ((memRootItem f >>= fun r => (pure (Program.given ⟨f, []⟩ r) : Mem World (Program × Reply))) w _).1 = _
  unfold memRootItem
  rw [hf]
  simp [mem_bind, Mem.bind, Mem.use, memMakeItem, memItemInit, Mem.attempt, Mem.alloc, Program.given]
  rfl

end Olecf.Props
