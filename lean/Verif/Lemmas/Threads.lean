import Verif.Spec.Threads
import Verif.Lemmas.Stream

/-
  Steps of a thread alone, and next to steps of others.
-/

namespace Olecf
open Olecf.Spec

/-- The other value at one place. -/
def threadSet (cur : Nat → Int) (i : Nat) (v : Int) : Nat → Int := fun j => if j = i then v else cur j

/-- All steps one after the other, without others: the result and the offsets afterwards. -/
def Act.alone (dev : Dev) : Act α → (Nat → Int) → α × (Nat → Int)
  | .ret a, cur => (a, cur)
  | .load i k, cur => (k (cur i)).alone dev cur
  | .store i v k, cur => k.alone dev (threadSet cur i v)
  | .get off size k, cur => (k (dev.get off size)).alone dev cur

/-- The number of steps. -/
def Act.cost (dev : Dev) : Act α → (Nat → Int) → Nat
  | .ret _, _ => 0
  | .load i k, cur => (k (cur i)).cost dev cur + 1
  | .store i v k, cur => k.cost dev (threadSet cur i v) + 1
  | .get off size k, cur => (k (dev.get off size)).cost dev cur + 1

/-- The steps load from and store to items of a set. -/
def Act.Within (S : Nat → Prop) : Act α → Prop
  | .ret _ => True
  | .load i k => S i ∧ ∀ v, (k v).Within S
  | .store i _ k => S i ∧ k.Within S
  | .get _ _ k => ∀ d, (k d).Within S

theorem alone_bind (dev : Dev) (a : Act α) (g : α → Act β) : ∀ cur,
    (a.bind g).alone dev cur = (g (a.alone dev cur).1).alone dev (a.alone dev cur).2 := by
  induction a with
  | ret a => intro cur; rfl
  | load i k ih => intro cur; exact ih _ cur
  | store i v k ih => intro cur; exact ih _
  | get off size k ih => intro cur; exact ih _ cur

theorem within_bind {S : Nat → Prop} {a : Act α} {g : α → Act β} (ha : a.Within S)
    (hg : ∀ x, (g x).Within S) : (a.bind g).Within S := by
  induction a with
  | ret a => exact hg a
  | load i k ih => exact ⟨ha.1, fun v => ih v (ha.2 v)⟩
  | store i v k ih => exact ⟨ha.1, ih ha.2⟩
  | get off size k ih => exact fun d => ih d (ha d)

/-- What happens to other items does not matter. -/
theorem alone_congr (dev : Dev) {S : Nat → Prop} {a : Act α} (ha : a.Within S) : ∀ {cur cur' : Nat → Int},
    (∀ i, S i → cur i = cur' i) →
    (a.alone dev cur).1 = (a.alone dev cur').1 ∧ a.cost dev cur = a.cost dev cur' := by
  induction a with
  | ret a => intro cur cur' _; exact ⟨rfl, rfl⟩
  | load i k ih =>
    intro cur cur' h
    have := ih (cur i) (ha.2 _) h
    unfold Act.alone Act.cost
    rw [← h i ha.1]
    exact ⟨this.1, by rw [this.2]⟩
  | store i v k ih =>
    intro cur cur' h
    have := ih ha.2 (cur := threadSet cur i v) (cur' := threadSet cur' i v) fun j hj => by
      unfold threadSet
      split
      · rfl
      · exact h j hj
    unfold Act.alone Act.cost
    exact ⟨this.1, by rw [this.2]⟩
  | get off size k ih =>
    intro cur cur' h
    have := ih (dev.get off size) (ha _) h
    unfold Act.alone Act.cost
    exact ⟨this.1, by rw [this.2]⟩

/-! ### The calls alone are those of Model/Stream -/

theorem loop_within (io : IoHandle) (sat table : AllocTable) (short : Bool) (ss : Nat) (S : Nat → Prop) :
    ∀ fuel room index id off size,
      (loopSteps io sat table short ss fuel room index id off size).Within S := by
  intro fuel
  induction fuel with
  | zero =>
    intro room index id off size
    unfold loopSteps
    split <;> trivial
  | succ fuel ih =>
    intro room index id off size
    unfold loopSteps
    split
    · trivial
    · dsimp only
      split
      · trivial
      · cases streamSectorOffset io sat short id with
        | ok pos =>
          dsimp only
          generalize (if off > index * ss then off - index * ss else 0) = skip
          generalize (if (ss + 2 ^ 64 - skip) % 2 ^ 64 > size then size
            else (ss + 2 ^ 64 - skip) % 2 ^ 64) = len
          split
          · trivial
          · intro d
            cases d with
            | none => trivial
            | some d =>
              dsimp only
              split
              · trivial
              · split
                · split
                  · trivial
                  · refine within_bind (ih _ _ _ _ _) fun r => ?_
                    rcases r with ⟨x, y⟩ | _ | _ | _ <;> trivial
                all_goals trivial
        | err => trivial
        | ub => trivial
        | hang => trivial

theorem loop_alone (io : IoHandle) (dev : Dev) (sat table : AllocTable) (short : Bool) (ss : Nat) :
    ∀ fuel room index id off size cur, size ≤ room →
      (loopSteps io sat table short ss fuel room index id off size).alone dev cur =
        ((streamLoop io dev sat table short ss fuel index id off size).res, cur) := by
  intro fuel
  induction fuel with
  | zero =>
    intro room index id off size cur h
    unfold loopSteps streamLoop
    split <;> rfl
  | succ fuel ih =>
    intro room index id off size cur h
    unfold loopSteps streamLoop
    split
    · rfl
    · dsimp only
      split
      · rfl
      · cases streamSectorOffset io sat short id with
        | ok pos =>
          dsimp only
          generalize (if off > index * ss then off - index * ss else 0) = skip
          have hle : (if (ss + 2 ^ 64 - skip) % 2 ^ 64 > size then size
              else (ss + 2 ^ 64 - skip) % 2 ^ 64) ≤ size := by split <;> omega
          generalize (if (ss + 2 ^ 64 - skip) % 2 ^ 64 > size then size
            else (ss + 2 ^ 64 - skip) % 2 ^ 64) = len at hle
          split
          · rfl
          · unfold Act.alone
            cases dev.get (pos + skip) len with
            | none => rfl
            | some d =>
              dsimp only
              rw [if_neg (by omega)]
              cases table.next id with
              | ok id' =>
                dsimp only
                split
                · rfl
                · rw [alone_bind, ih _ _ _ _ _ _ (by omega)]
                  dsimp only
                  generalize (streamLoop io dev sat table short ss fuel (index + 1) id' (off + len)
                    (size - len)) = out
                  rcases out with ⟨_, ⟨x, y⟩ | _ | _ | _⟩ <;> rfl
              | err => rfl
              | ub => rfl
              | hang => rfl
        | err => rfl
        | ub => rfl
        | hang => rfl

theorem readStream_within (f : FileCtx) (d : DirEntry) (i room size : Nat) :
    (readStreamSteps f d i room size).Within (· = i) := by
  refine ⟨rfl, fun offset => ?_⟩
  dsimp only
  split
  · trivial
  · split
    · trivial
    · split
      · trivial
      · split
        · trivial
        · split
          · refine within_bind (loop_within ..) fun r => ?_
            rcases r with ⟨x, y⟩ | _ | _ | _
            · exact ⟨rfl, trivial⟩
            all_goals trivial
          all_goals trivial

theorem readRest_within (f : FileCtx) (d : DirEntry) (i room size : Nat) :
    (readRestSteps f d i room size).Within (· = i) := by
  refine within_bind (readStream_within ..) fun r => ?_
  rcases r with x | _ | _ | _
  · dsimp only
    split <;> trivial
  all_goals trivial

theorem read_within (f : FileCtx) (d : DirEntry) (i size : Nat) : (readSteps f d i size).Within (· = i) := by
  unfold readSteps
  split
  · trivial
  · refine ⟨rfl, fun c => ?_⟩
    dsimp only
    split
    · trivial
    · split
      · trivial
      · refine ⟨rfl, fun c => ?_⟩
        dsimp only
        split
        · trivial
        · split
          · exact ⟨rfl, fun c => readRest_within ..⟩
          · refine ⟨rfl, fun c => ?_⟩
            dsimp only
            split
            · exact ⟨rfl, fun c => readRest_within ..⟩
            · exact readRest_within ..

theorem seek_within (d : DirEntry) (i : Nat) (offset : Int) (whence : Whence) :
    (seekSteps d i offset whence).Within (· = i) := by
  unfold seekSteps
  split
  · trivial
  · refine ⟨rfl, fun c => ?_⟩
    dsimp only
    have hset : ∀ sum : Int, Act.Within (· = i) (if ¬ inOff64 sum then (.ret .ub : Act (Res Int))
        else if sum < 0 then .ret .err else .store i sum (.ret (.ok sum))) := by
      intro sum
      split
      · trivial
      · split
        · trivial
        · exact ⟨rfl, trivial⟩
    split
    · trivial
    · split
      · trivial
      · split
        · exact ⟨rfl, fun c => hset _⟩
        all_goals exact hset _

theorem call_within (f : FileCtx) (d : DirEntry) (i : Nat) (c : StreamCall) :
    (callSteps f d i c).Within (· = i) := by
  cases c with
  | read size => exact within_bind (read_within ..) fun _ => trivial
  | readAt size offset =>
    refine within_bind (within_bind (seek_within ..) fun r => ?_) fun _ => trivial
    rcases r with x | _ | _ | _
    · exact read_within ..
    all_goals trivial
  | seek offset whence => exact within_bind (seek_within ..) fun _ => trivial
  | getOffset =>
    refine within_bind ?_ fun _ => trivial
    unfold offsetSteps
    split
    · trivial
    · exact ⟨rfl, fun _ => trivial⟩

theorem within_mono {S S' : Nat → Prop} (h : ∀ i, S i → S' i) {a : Act α} (ha : a.Within S) : a.Within S' := by
  induction a with
  | ret a => trivial
  | load i k ih => exact ⟨h _ ha.1, fun v => ih v (ha.2 v)⟩
  | store i v k ih => exact ⟨h _ ha.1, ih ha.2⟩
  | get off size k ih => exact fun d => ih d (ha d)

theorem steps_within (f : FileCtx) (entry : Nat → DirEntry) {S : Nat → Prop} : ∀ {client : Client},
    Uses S client → (client.steps f entry).Within S
  | .done, _ => trivial
  | .call i c k, h =>
    within_bind (within_mono (fun _ hj => by subst hj; exact h.1) (call_within f (entry i) i c)) fun r =>
      within_bind (steps_within f entry (h.2 r)) fun _ => trivial

/-- `libolecf_stream_read_buffer` with the results of Model/Stream. -/
theorem readStream_alone (f : FileCtx) (d : DirEntry) (i room size : Nat) (h : size ≤ room)
    (cur : Nat → Int) : (readStreamSteps f d i room size).alone f.dev cur =
      match (readStream f d (cur i) size).res with
      | .ok (data, off) => (.ok data, threadSet cur i off)
      | .err => (.err, cur)
      | .ub => (.ub, cur)
      | .hang => (.hang, cur) := by
  unfold readStreamSteps readStream
  unfold Act.alone
  dsimp only
  split
  · rfl
  · split
    · rfl
    · split
      · rfl
      · split
        · rfl
        · cases chainPos (f.table d) (toInt32 ((cur i).toNat / f.unit d)).toNat d.start with
          | ok id =>
            dsimp only
            rw [alone_bind, loop_alone _ _ _ _ _ _ _ _ _ _ _ _ _ h]
            generalize (streamLoop f.io f.dev f.sat (f.table d) (f.short d) (f.unit d) size
              (toInt32 ((cur i).toNat / f.unit d)).toNat id (cur i).toNat size) = out
            rcases out with ⟨_, ⟨x, y⟩ | _ | _ | _⟩ <;> rfl
          | err => rfl
          | ub => rfl
          | hang => rfl

theorem threadSet_self (cur : Nat → Int) (i : Nat) : threadSet cur i (cur i) = cur := by
  funext j
  unfold threadSet
  split
  · rename_i h; rw [h]
  · rfl

theorem read_alone (f : FileCtx) (d : DirEntry) (i size : Nat) (cur : Nat → Int) :
    (readSteps f d i size).alone f.dev cur =
      ((streamRead f d (cur i) size).1.res, threadSet cur i (streamRead f d (cur i) size).2) := by
  have hrest : ∀ n, n ≤ size → (readRestSteps f d i size n).alone f.dev cur =
      match (readStream f d (cur i) n).res with
      | .ok (data, off) => (if data.length ≠ n then .err else .ok data, threadSet cur i off)
      | .err => (.err, cur)
      | .ub => (.ub, cur)
      | .hang => (.hang, cur) := by
    intro n hn
    unfold readRestSteps
    rw [alone_bind, readStream_alone f d i size n hn cur]
    rcases (readStream f d (cur i) n).res with ⟨x, y⟩ | _ | _ | _
    · dsimp only
      split <;> rfl
    all_goals rfl
  have hout : ∀ (out : Out (Bytes × Nat)) n, (match out.res with
      | .ok (data, off) => ((if data.length ≠ n then .err else .ok data : Res Bytes), threadSet cur i off)
      | .err => (.err, cur)
      | .ub => (.ub, cur)
      | .hang => (.hang, cur)) =
      ((match out.res with
        | .ok (data, off) =>
          if data.length ≠ n then ((⟨out.reads, .err⟩ : Out Bytes), (off : Int)) else (⟨out.reads, .ok data⟩, off)
        | .err => (⟨out.reads, .err⟩, cur i)
        | .ub => (⟨out.reads, .ub⟩, cur i)
        | .hang => (⟨out.reads, .hang⟩, cur i)).1.res,
       threadSet cur i (match out.res with
        | .ok (data, off) =>
          if data.length ≠ n then ((⟨out.reads, .err⟩ : Out Bytes), (off : Int)) else (⟨out.reads, .ok data⟩, off)
        | .err => (⟨out.reads, .err⟩, cur i)
        | .ub => (⟨out.reads, .ub⟩, cur i)
        | .hang => (⟨out.reads, .hang⟩, cur i)).2) := by
    rintro ⟨reads, ⟨x, y⟩ | _ | _ | _⟩ n
    · dsimp only
      split <;> rfl
    all_goals dsimp only; rw [threadSet_self]
  unfold readSteps streamRead
  split
  · show (_, cur) = (_, threadSet cur i (cur i)); rw [threadSet_self]; rfl
  · unfold Act.alone
    dsimp only
    split
    · show (_, cur) = (_, threadSet cur i (cur i)); rw [threadSet_self]; rfl
    · split
      · show (_, cur) = (_, threadSet cur i (cur i)); rw [threadSet_self]; rfl
      · unfold Act.alone
        dsimp only
        split
        · show (_, cur) = (_, threadSet cur i (cur i)); rw [threadSet_self]; rfl
        · rename_i h1 h2 h3
          have hn : (if ((d.size : Int) - cur i) < 0 then ((d.size : Int) - cur i + 2 ^ 64).toNat
              else ((d.size : Int) - cur i).toNat) = d.size - (cur i).toNat := by
            rw [if_neg (by omega)]; omega
          by_cases hs : size > d.size
          · rw [if_pos hs, if_pos (Or.inl hs)]
            unfold Act.alone
            dsimp only
            rw [hn, hrest _ (by omega)]
            exact hout _ _
          · rw [if_neg hs]
            unfold Act.alone
            dsimp only
            by_cases hc : (cur i).toNat > d.size - size
            · rw [if_pos hc, if_pos (Or.inr hc)]
              unfold Act.alone
              dsimp only
              rw [hn, hrest _ (by omega)]
              exact hout _ _
            · rw [if_neg hc, if_neg (by omega), hrest _ (Nat.le_refl _)]
              exact hout _ _

theorem seek_alone (f : FileCtx) (d : DirEntry) (i : Nat) (offset : Int) (whence : Whence) (cur : Nat → Int) :
    (seekSteps d i offset whence).alone f.dev cur =
      ((streamSeek d (cur i) offset whence).1, threadSet cur i (streamSeek d (cur i) offset whence).2) := by
  have hset : ∀ sum : Int, Act.alone f.dev (if ¬ inOff64 sum then (.ret .ub : Act (Res Int))
      else if sum < 0 then .ret .err else .store i sum (.ret (.ok sum))) cur =
      ((if ¬ inOff64 sum then (Res.ub, cur i) else if sum < 0 then (.err, cur i) else (.ok sum, sum)).1,
        threadSet cur i (if ¬ inOff64 sum then (Res.ub, cur i) else if sum < 0 then (.err, cur i)
          else (.ok sum, sum)).2) := by
    intro sum
    split
    · show (_, cur) = (_, threadSet cur i (cur i)); rw [threadSet_self]
    · split
      · show (_, cur) = (_, threadSet cur i (cur i)); rw [threadSet_self]
      · rfl
  unfold seekSteps streamSeek
  split
  · show (_, cur) = (_, threadSet cur i (cur i)); rw [threadSet_self]
  · unfold Act.alone
    dsimp only
    split
    · show (_, cur) = (_, threadSet cur i (cur i)); rw [threadSet_self]
    · split
      · show (_, cur) = (_, threadSet cur i (cur i)); rw [threadSet_self]
      · cases whence with
        | cur => exact hset _
        | fromEnd => exact hset _
        | set => exact hset _
        | other => exact hset _

theorem readAt_alone (f : FileCtx) (d : DirEntry) (i size : Nat) (offset : Int) (cur : Nat → Int) :
    (readAtSteps f d i size offset).alone f.dev cur =
      ((streamReadAt f d (cur i) size offset).1.res,
        threadSet cur i (streamReadAt f d (cur i) size offset).2) := by
  unfold readAtSteps streamReadAt
  rw [alone_bind, seek_alone]
  rcases streamSeek d (cur i) offset .set with ⟨x | _ | _ | _, c⟩
  · dsimp only
    rw [read_alone]
    have h1 : threadSet cur i c i = c := by unfold threadSet; rw [if_pos rfl]
    rw [h1]
    congr 1
    funext j
    unfold threadSet
    split <;> rfl
  all_goals rfl

/-- A call on one item alone: the reply and the offset afterwards. -/
def callAlone (f : FileCtx) (d : DirEntry) (cur : Int) : StreamCall → StreamReply × Int
  | .read size => (.data (streamRead f d cur size).1.res, (streamRead f d cur size).2)
  | .readAt size offset =>
    (.data (streamReadAt f d cur size offset).1.res, (streamReadAt f d cur size offset).2)
  | .seek offset whence => (.pos (streamSeek d cur offset whence).1, (streamSeek d cur offset whence).2)
  | .getOffset => (.pos (streamGetOffset d cur), cur)

theorem call_alone (f : FileCtx) (d : DirEntry) (i : Nat) (c : StreamCall) (cur : Nat → Int) :
    (callSteps f d i c).alone f.dev cur =
      ((callAlone f d (cur i) c).1, threadSet cur i (callAlone f d (cur i) c).2) := by
  cases c with
  | read size => unfold callSteps; rw [alone_bind, read_alone]; rfl
  | readAt size offset => unfold callSteps; rw [alone_bind, readAt_alone]; rfl
  | seek offset whence => unfold callSteps; rw [alone_bind, seek_alone]; rfl
  | getOffset =>
    unfold callSteps offsetSteps
    rw [alone_bind]
    unfold callAlone streamGetOffset
    split
    · show (_, cur) = (_, threadSet cur i (cur i)); rw [threadSet_self]; rfl
    · show (_, cur) = (_, threadSet cur i (cur i)); rw [threadSet_self]; rfl

/-- A program alone, by the functions of Model/Stream. -/
def clientAlone (f : FileCtx) (entry : Nat → DirEntry) : (Nat → Int) → Client → List StreamReply
  | _, .done => []
  | cur, .call i c k =>
    (callAlone f (entry i) (cur i) c).1 ::
      clientAlone f entry (threadSet cur i (callAlone f (entry i) (cur i) c).2)
        (k (callAlone f (entry i) (cur i) c).1)

theorem steps_alone (f : FileCtx) (entry : Nat → DirEntry) : ∀ (client : Client) (cur : Nat → Int),
    ((client.steps f entry).alone f.dev cur).1 = clientAlone f entry cur client
  | .done, _ => rfl
  | .call i c k, cur => by
    unfold Client.steps clientAlone
    rw [alone_bind, call_alone, alone_bind]
    show _ :: _ = _
    rw [steps_alone f entry (k _) _]

/-! ### Threads -/

/-- One step of a thread, and what it means for it and for the others. -/
theorem step_self (dev : Dev) (s : Threads) (t : Nat) :
    (((s.step dev t).act t).alone dev (s.step dev t).cur).1 = ((s.act t).alone dev s.cur).1 ∧
    ((s.step dev t).act t).cost dev (s.step dev t).cur = (s.act t).cost dev s.cur - 1 := by
  unfold Threads.step
  cases h : s.act t with
  | ret a => dsimp only; rw [h]; exact ⟨rfl, rfl⟩
  | load i k => dsimp only; rw [if_pos rfl]; exact ⟨rfl, rfl⟩
  | store i v k => dsimp only; rw [if_pos rfl]; exact ⟨rfl, rfl⟩
  | get off size k => dsimp only; rw [if_pos rfl]; exact ⟨rfl, rfl⟩

theorem step_other (dev : Dev) (s : Threads) {t u : Nat} (h : u ≠ t) : (s.step dev t).act u = s.act u := by
  unfold Threads.step
  cases s.act t with
  | ret a => rfl
  | load i k => exact if_neg h
  | store i v k => exact if_neg h
  | get off size k => exact if_neg h

theorem step_cur (dev : Dev) (s : Threads) {t : Nat} {S : Nat → Prop} (hw : (s.act t).Within S) {i : Nat}
    (hi : ¬ S i) : (s.step dev t).cur i = s.cur i := by
  unfold Threads.step
  cases h : s.act t with
  | ret a => rfl
  | load j k => rfl
  | store j v k =>
    rw [h] at hw
    exact if_neg fun (hj : i = j) => hi (by rw [hj]; exact hw.1)
  | get off size k => rfl

theorem step_within (dev : Dev) (s : Threads) {t : Nat} {S : Nat → Prop} (hw : (s.act t).Within S) :
    ((s.step dev t).act t).Within S := by
  unfold Threads.step
  cases h : s.act t with
  | ret a => dsimp only; rw [h]; trivial
  | load j k => rw [h] at hw; dsimp only; rw [if_pos rfl]; exact hw.2 _
  | store j v k => rw [h] at hw; dsimp only; rw [if_pos rfl]; exact hw.2
  | get off size k => rw [h] at hw; dsimp only; rw [if_pos rfl]; exact hw _

/-- Threads on separate items: each one is, at every time, as if it were alone. -/
theorem run_separate (dev : Dev) {S : Nat → Nat → Prop} (hS : ∀ t u i, t ≠ u → S t i → ¬ S u i) :
    ∀ (schedule : List Nat) (s : Threads), (∀ t, (s.act t).Within (S t)) →
    (∀ t, ((s.run dev schedule).act t).Within (S t)) ∧
    ∀ t, (((s.run dev schedule).act t).alone dev (s.run dev schedule).cur).1 = ((s.act t).alone dev s.cur).1 ∧
      ((s.run dev schedule).act t).cost dev (s.run dev schedule).cur =
        (s.act t).cost dev s.cur - schedule.count t
  | [], s, h => ⟨h, fun t => ⟨rfl, by simp [Threads.run]⟩⟩
  | u :: rest, s, h => by
    have hw : ∀ t, ((s.step dev u).act t).Within (S t) := by
      intro t
      by_cases htu : t = u
      · subst htu; exact step_within dev s (h t)
      · rw [step_other dev s htu]; exact h t
    obtain ⟨h1, h2⟩ := run_separate dev hS rest (s.step dev u) hw
    refine ⟨h1, fun t => ?_⟩
    obtain ⟨h3, h4⟩ := h2 t
    change ((((s.step dev u).run dev rest).act t).alone dev ((s.step dev u).run dev rest).cur).1 = _ ∧
      (((s.step dev u).run dev rest).act t).cost dev ((s.step dev u).run dev rest).cur = _
    rw [h3, h4]
    by_cases htu : t = u
    · subst htu
      obtain ⟨h5, h6⟩ := step_self dev s t
      rw [h5, h6, List.count_cons_self]
      exact ⟨rfl, by omega⟩
    · rw [step_other dev s htu]
      have := alone_congr dev (h t) (cur := (s.step dev u).cur) (cur' := s.cur) fun i hi =>
        step_cur dev s (h u) (hS t u i htu hi)
      rw [this.1, this.2, List.count_cons_of_ne (Ne.symm htu)]
      exact ⟨rfl, rfl⟩

end Olecf
