import Verif.Lemmas.MemSet

/-! Programs that fail if memory is refused to them, and else compute what they would compute with
  memory for every request. -/

namespace Olecf
namespace Lemmas
open Spec

variable {σ α β γ δ : Type}

/-- A request between the two heaps was refused. -/
def Refused (h h' : Heap) : Prop := ∃ n, h.asked ≤ n ∧ n < h'.asked ∧ h.grant n = false

theorem Refused.left {h h' h'' : Heap} (hr : Refused h h') (ha : h'.asked ≤ h''.asked) :
    Refused h h'' := by
  obtain ⟨n, h1, h2, h3⟩ := hr
  exact ⟨n, h1, by omega, h3⟩

theorem Refused.right {h h' h'' : Heap} (hr : Refused h' h'') (ha : h.asked ≤ h'.asked)
    (hg : h'.grant = h.grant) : Refused h h'' := by
  obtain ⟨n, h1, h2, h3⟩ := hr
  exact ⟨n, by omega, h2, by rw [← hg]; exact h3⟩

/-- The outcome is that of the computation. -/
def Same (r : Res α) (q : Res γ) (view : α → γ) : Prop :=
  match r with
  | .ok a => q = .ok (view a)
  | .err => q = .err
  | .ub => q = .ub
  | .hang => q = .hang

/-- The outcome is that of the computation, with failures as values. -/
def SameFlag (r : Res α) (q : Res γ) (flag : α → Bool) (view : α → γ) : Prop :=
  match r with
  | .ok a => if flag a then q = .ok (view a) else q = .err
  | .err => False
  | .ub => q = .ub
  | .hang => q = .hang

/-- Time goes on and the rest of the environment stays. -/
def Later (h h' : Heap) : Prop := h.asked ≤ h'.asked ∧ h'.grant = h.grant

theorem Later.trans {h h' h'' : Heap} (a : Later h h') (b : Later h' h'') : Later h h'' :=
  ⟨Nat.le_trans a.1 b.1, b.2.trans a.2⟩

theorem Later.refl (h : Heap) : Later h h := ⟨Nat.le_refl _, rfl⟩

/-- The program does what `v` says, or fails because a request is refused. -/
def Follows (m : Mem σ α) (v : σ → Res γ × σ) (view : α → γ) : Prop :=
  ∀ s h, Later h (m s h).2.2 ∧
    ((m s h).1 = .err ∧ Refused h (m s h).2.2 ∨
      (m s h).2.1 = (v s).2 ∧ Same (m s h).1 (v s).1 view)

/-- As `Follows`, for a program that gives its failure as a value. -/
def FollowsFlag (m : Mem σ α) (v : σ → Res γ × σ) (flag : α → Bool) (view : α → γ) : Prop :=
  ∀ s h, Later h (m s h).2.2 ∧
    ((∃ a, (m s h).1 = .ok a ∧ flag a = false) ∧ Refused h (m s h).2.2 ∨
      (m s h).2.1 = (v s).2 ∧ SameFlag (m s h).1 (v s).1 flag view)

/-- A program that does nothing but free, and asks for nothing. -/
def Frees (c : Mem σ Unit) : Prop :=
  ∀ s h, (c s h).1 = .ok () ∧ (c s h).2.1 = s ∧ (c s h).2.2.grant = h.grant ∧
    (c s h).2.2.asked = h.asked

theorem frees_pure : Frees (pure () : Mem σ Unit) := fun _ _ => ⟨rfl, rfl, rfl, rfl⟩

theorem frees_release (b : Nat) : Frees (Mem.release b : Mem σ Unit) := by
  intro s h
  unfold Mem.release
  split <;> exact ⟨rfl, rfl, rfl, rfl⟩

theorem frees_use (b : Nat) : Frees (Mem.use b : Mem σ Unit) := by
  intro s h
  unfold Mem.use
  split <;> exact ⟨rfl, rfl, rfl, rfl⟩

theorem frees_releaseOpt (b : Option Nat) : Frees (Mem.releaseOpt b : Mem σ Unit) := by
  cases b
  · exact frees_pure
  · exact frees_release _

theorem frees_bind {c : Mem σ Unit} {d : Unit → Mem σ Unit} (hc : Frees c) (hd : Frees (d ())) :
    Frees (c >>= d) := by
  intro s h
  obtain ⟨h1, h2, h3, h4⟩ := hc s h
  rw [mem_bind]
  unfold Mem.bind
  revert h1 h2 h3 h4
  rcases c s h with ⟨r, s', h'⟩
  intro h1 h2 h3 h4
  dsimp only at h1 h2 h3 h4
  subst h1 h2
  obtain ⟨k1, k2, k3, k4⟩ := hd s' h'
  exact ⟨k1, k2, k3.trans h3, k4.trans h4⟩

theorem frees_forEach {f : α → Mem σ Unit} (hf : ∀ a, Frees (f a)) : ∀ l, Frees (Mem.forEach f l)
  | [] => frees_pure
  | a :: l => frees_bind (hf a) (frees_forEach hf l)

theorem follows_bind {m : Mem σ α} {k : α → Mem σ β} {v : σ → Res γ × σ}
    {w : γ → σ → Res δ × σ} {view : α → γ} {view' : β → δ} (hm : Follows m v view)
    (hk : ∀ a, Follows (k a) (w (view a)) view') :
    Follows (m >>= k) (stepBind v w) view' := by
  intro s h
  obtain ⟨h1, h2⟩ := hm s h
  rw [mem_bind]
  unfold Mem.bind stepBind
  revert h1 h2
  rcases m s h with ⟨r, s', h'⟩
  rcases v s with ⟨r', s''⟩
  intro h1 h2
  dsimp only at h1 h2
  rcases h2 with ⟨rfl, h2⟩ | ⟨rfl, h2⟩
  · exact ⟨h1, .inl ⟨rfl, h2⟩⟩
  · cases r <;> dsimp only [Same] at h2 <;> subst h2 <;> dsimp only
    · obtain ⟨k1, k2⟩ := hk _ s' h'
      refine ⟨h1.trans k1, ?_⟩
      rcases k2 with ⟨k2, k3⟩ | k2
      · exact .inl ⟨k2, k3.right h1.1 h1.2⟩
      · exact .inr k2
    all_goals exact ⟨h1, .inr ⟨rfl, rfl⟩⟩

theorem follows_attempt {m : Mem σ α} {k : Option α → Mem σ β} {v : σ → Res γ × σ}
    {w : γ → σ → Res δ × σ} {view : α → γ} {flag : β → Bool} {view' : β → δ}
    (hm : Follows m v view)
    (hk : ∀ a, FollowsFlag (k (some a)) (w (view a)) flag view')
    (hn : ∃ b, k none = pure b ∧ flag b = false) :
    FollowsFlag (m.attempt >>= k) (stepBind v w) flag view' := by
  intro s h
  obtain ⟨h1, h2⟩ := hm s h
  obtain ⟨b, hb, hf⟩ := hn
  rw [mem_bind]
  unfold Mem.bind stepBind Mem.attempt
  revert h1 h2
  rcases m s h with ⟨r, s', h'⟩
  rcases v s with ⟨r', s''⟩
  intro h1 h2
  dsimp only at h1 h2
  rcases h2 with ⟨rfl, h2⟩ | ⟨rfl, h2⟩
  · dsimp only
    rw [hb]
    exact ⟨h1, .inl ⟨⟨b, rfl, hf⟩, h2⟩⟩
  · cases r <;> dsimp only [Same] at h2 <;> subst h2 <;> dsimp only
    · obtain ⟨k1, k2⟩ := hk _ s' h'
      refine ⟨h1.trans k1, ?_⟩
      rcases k2 with ⟨k2, k3⟩ | k2
      · exact .inl ⟨k2, k3.right h1.1 h1.2⟩
      · exact .inr k2
    · rw [hb]
      refine ⟨h1, .inr ⟨rfl, ?_⟩⟩
      show if flag b then _ else _
      rw [hf]
      rfl
    all_goals exact ⟨h1, .inr ⟨rfl, rfl⟩⟩

theorem follows_pure (a : α) (view : α → γ) :
    Follows (pure a : Mem σ α) (fun s => (.ok (view a), s)) view := fun _ h =>
  ⟨.refl h, .inr ⟨rfl, rfl⟩⟩

theorem followsFlag_pure {a : α} {flag : α → Bool} {view : α → γ} (hf : flag a = true) :
    FollowsFlag (pure a : Mem σ α) (fun s => (.ok (view a), s)) flag view := by
  intro s h
  refine ⟨.refl h, .inr ⟨rfl, ?_⟩⟩
  show if flag a then _ else _
  rw [hf]
  rfl

theorem follows_fail (view : α → γ) :
    Follows (Mem.fail : Mem σ α) (fun s => (.err, s)) view := fun _ h => ⟨.refl h, .inr ⟨rfl, rfl⟩⟩

theorem follows_lift (v : σ → Res α × σ) : Follows (Mem.lift v) v id := by
  intro s h
  refine ⟨.refl h, .inr ⟨rfl, ?_⟩⟩
  show Same (v s).1 (v s).1 id
  cases (v s).1 <;> rfl

theorem follows_of (r : Res α) : Follows (Mem.of r : Mem σ α) (fun s => (r, s)) id := by
  intro s h
  refine ⟨.refl h, .inr ⟨rfl, ?_⟩⟩
  show Same r r id
  cases r <;> rfl

theorem follows_alloc : Follows (Mem.alloc : Mem σ Nat) (fun s => (.ok (), s)) (fun _ => ()) := by
  intro s h
  unfold Mem.alloc
  split
  · exact ⟨⟨Nat.le_succ _, rfl⟩, .inr ⟨rfl, rfl⟩⟩
  · rename_i hg
    exact ⟨⟨Nat.le_succ _, rfl⟩, .inl ⟨rfl, h.asked, Nat.le_refl _, Nat.lt_succ_self _,
      Bool.eq_false_iff.2 hg⟩⟩

theorem follows_ask : Follows (Mem.ask : Mem σ Unit) (fun s => (.ok (), s)) (fun _ => ()) := by
  intro s h
  unfold Mem.ask
  by_cases hg : h.grant h.asked = true
  · rw [if_pos hg]
    exact ⟨⟨Nat.le_succ _, rfl⟩, .inr ⟨rfl, rfl⟩⟩
  · rw [if_neg hg]
    exact ⟨⟨Nat.le_succ _, rfl⟩, .inl ⟨rfl, h.asked, Nat.le_refl _, Nat.lt_succ_self _,
      Bool.eq_false_iff.2 hg⟩⟩

theorem follows_frees {c : Mem σ Unit} (hc : Frees c) :
    Follows c (fun s => (.ok (), s)) (fun _ => ()) := by
  intro s h
  obtain ⟨h1, h2, h3, h4⟩ := hc s h
  refine ⟨⟨Nat.le_of_eq h4.symm, h3⟩, .inr ⟨h2, ?_⟩⟩
  rw [h1]
  rfl

theorem follows_onError {m : Mem σ α} {c : Mem σ Unit} {v : σ → Res γ × σ} {view : α → γ}
    (hm : Follows m v view) (hc : Frees c) : Follows (m.onError c) v view := by
  intro s h
  obtain ⟨h1, h2⟩ := hm s h
  unfold Mem.onError
  revert h1 h2
  rcases m s h with ⟨r, s', h'⟩
  intro h1 h2
  dsimp only at h1 h2
  cases r with
  | err =>
    obtain ⟨k1, k2, k3, k4⟩ := hc s' h'
    dsimp only [Mem.bind]
    revert k1 k2 k3 k4
    rcases c s' h' with ⟨r, s'', h''⟩
    intro k1 k2 k3 k4
    dsimp only at k1 k2 k3 k4
    subst k1 k2
    have hl : Later h' h'' := ⟨Nat.le_of_eq k4.symm, k3⟩
    refine ⟨h1.trans hl, ?_⟩
    rcases h2 with ⟨-, h2⟩ | h2
    · exact .inl ⟨rfl, h2.left hl.1⟩
    · exact .inr h2
  | ok a => exact ⟨h1, h2⟩
  | ub => exact ⟨h1, h2⟩
  | hang => exact ⟨h1, h2⟩

theorem follows_congr {m : Mem σ α} {v w : σ → Res γ × σ} {view : α → γ} (h : Follows m v view)
    (hv : ∀ s, v s = w s) : Follows m w view := by
  intro s hp
  rw [← hv]
  exact h s hp

theorem followsFlag_congr {m : Mem σ α} {v w : σ → Res γ × σ} {flag : α → Bool} {view : α → γ}
    (h : FollowsFlag m v flag view) (hv : ∀ s, v s = w s) : FollowsFlag m w flag view := by
  intro s hp
  rw [← hv]
  exact h s hp

theorem follows_skip {m : Mem σ α} {k : α → Mem σ β} {w : σ → Res δ × σ} {view' : β → δ}
    (hm : Follows m (fun s => (.ok (), s)) (fun _ => ()))
    (hk : ∀ a, Follows (k a) w view') : Follows (m >>= k) w view' :=
  follows_congr (follows_bind (w := fun _ => w) hm hk) (fun _ => rfl)

theorem follows_flag {m : Mem σ α} {flag : α → Bool} {k : α → Mem σ β} {v : σ → Res γ × σ}
    {w : γ → σ → Res δ × σ} {view : α → γ} {view' : β → δ} (hm : FollowsFlag m v flag view)
    (hk : ∀ a, flag a = true → Follows (k a) (w (view a)) view')
    (hn : ∀ a, flag a = false → Follows (k a) (fun s => (.err, s)) view') :
    Follows (m >>= k) (stepBind v w) view' := by
  intro s h
  obtain ⟨h1, h2⟩ := hm s h
  rw [mem_bind]
  unfold Mem.bind stepBind
  revert h1 h2
  rcases m s h with ⟨r, s', h'⟩
  rcases v s with ⟨r', s''⟩
  intro h1 h2
  dsimp only at h1 h2
  rcases h2 with ⟨⟨a, rfl, hf⟩, h2⟩ | ⟨rfl, h2⟩
  · dsimp only
    obtain ⟨k1, k2⟩ := hn a hf s' h'
    refine ⟨h1.trans k1, .inl ⟨?_, h2.left k1.1⟩⟩
    rcases k2 with ⟨k2, -⟩ | ⟨-, k2⟩
    · exact k2
    · revert k2
      generalize (k a s' h').1 = r
      cases r <;> intro h <;> first | rfl | cases h
  · cases r with
    | ok a =>
      dsimp only [SameFlag] at h2 ⊢
      cases hf : flag a with
      | true =>
        rw [hf, if_pos rfl] at h2
        subst h2
        obtain ⟨k1, k2⟩ := hk a hf s' h'
        refine ⟨h1.trans k1, ?_⟩
        rcases k2 with ⟨k2, k3⟩ | k2
        · exact .inl ⟨k2, k3.right h1.1 h1.2⟩
        · exact .inr k2
      | false =>
        rw [hf, if_neg (by simp)] at h2
        subst h2
        obtain ⟨k1, k2⟩ := hn a hf s' h'
        refine ⟨h1.trans k1, ?_⟩
        rcases k2 with ⟨k2, k3⟩ | k2
        · exact .inl ⟨k2, k3.right h1.1 h1.2⟩
        · exact .inr k2
    | err => exact h2.elim
    | ub => dsimp only [SameFlag] at h2; subst h2; exact ⟨h1, .inr ⟨rfl, rfl⟩⟩
    | hang => dsimp only [SameFlag] at h2; subst h2; exact ⟨h1, .inr ⟨rfl, rfl⟩⟩

/-! ### Property sets -/

theorem frees_freeFValue (v : MFValue) : Frees (freeFValue v) :=
  frees_bind (frees_use _) (frees_bind (frees_releaseOpt _) (frees_release _))

theorem frees_freeValue (v : MValue) : Frees (freeValue v) := by
  unfold freeValue
  refine frees_bind (frees_use _) ?_
  split
  · exact frees_bind (frees_freeFValue _) (frees_release _)
  · exact frees_bind (d := fun _ => Mem.release v.block) frees_pure (frees_release _)

theorem frees_freeSection (s : MSection) : Frees (freeSection s) :=
  frees_bind (frees_use _) (frees_bind (frees_use _) (frees_bind (frees_forEach frees_freeValue _)
    (frees_bind (frees_release _) (frees_release _))))

theorem frees_freeSet (s : MSet) : Frees (freeSet s) :=
  frees_bind (frees_use _) (frees_bind (frees_use _) (frees_bind (frees_forEach frees_freeSection _)
    (frees_bind (frees_release _) (frees_release _))))

/-- Sequencing, for a step of the reader. -/
theorem follows_bind' {m : SetMem α} {k : α → SetMem β} {v : Reader γ} {w : γ → Reader δ}
    {view : α → γ} {view' : β → δ} (hm : Follows m v view)
    (hk : ∀ a, Follows (k a) (w (view a)) view') : Follows (m >>= k) (v >>= w : Reader δ) view' := by
  rw [reader_bind]
  exact follows_bind hm hk

theorem follows_step {k : α → SetMem β} {v : Reader α} {w : α → Reader δ} {view' : β → δ}
    (hk : ∀ a, Follows (k a) (w a) view') :
    Follows (readerStep v >>= k) (v >>= w : Reader δ) view' :=
  follows_bind' (follows_lift v) hk

theorem follows_stepOf {k : α → SetMem β} {r : Res α} {w : α → Reader δ} {view' : β → δ}
    (hk : ∀ a, Follows (k a) (w a) view') :
    Follows (Mem.of r >>= k) (Reader.of r >>= w : Reader δ) view' :=
  follows_bind' (follows_of r) hk

theorem follows_ret {a : α} {c : γ} {view : α → γ} (h : view a = c) :
    Follows (pure a : SetMem α) (pure c : Reader γ) view := by
  rw [← h]
  exact follows_pure a view

theorem memMultiLoop_follows (f : FileCtx) (d : DirEntry) (e : Endian) :
    ∀ n offset, Follows (memMultiLoop f d e n offset) (multiLoop f d e n offset) id
  | 0, _ => follows_ret rfl
  | n + 1, offset => by
    unfold memMultiLoop multiLoop
    split
    · exact follows_fail _
    · refine follows_step fun b => follows_stepOf fun size => ?_
      split
      · exact follows_fail _
      · split
        · exact follows_fail _
        · refine follows_skip follows_alloc fun data => ?_
          refine follows_bind' (follows_onError (follows_lift _) (frees_release _)) fun _ => ?_
          exact follows_skip (follows_frees (frees_release _)) fun _ =>
            memMultiLoop_follows f d e n _

theorem memMakeValue_follows (data : Option Nat) (v : FValue) :
    Follows (memMakeValue data v) (pure v : Reader FValue) (·.value) := by
  unfold memMakeValue
  refine follows_skip (follows_onError follows_alloc (frees_releaseOpt _)) fun block => ?_
  cases data with
  | none => exact follows_ret rfl
  | some b =>
    refine follows_skip (follows_onError follows_ask
      (frees_bind (frees_release _) (frees_releaseOpt _))) fun _ => follows_ret rfl

theorem memReadValueData_follows (f : FileCtx) (d : DirEntry) (e : Endian) (type size : Nat) :
    Follows (memReadValueData f d e type size) (readValueData f d e type size) (·.value) := by
  unfold memReadValueData readValueData
  split
  · exact memMakeValue_follows _ _
  · dsimp only
    split
    · exact follows_fail _
    · refine follows_skip follows_alloc fun block => ?_
      refine follows_bind' (follows_onError (follows_lift _) (frees_release _)) fun data => ?_
      refine follows_stepOf fun n => ?_
      split
      · exact follows_stepOf fun bs => memMakeValue_follows _ _
      · exact memMakeValue_follows _ _

theorem memReadValue_follows (f : FileCtx) (d : DirEntry) (e : Endian) (offset : Nat) :
    Follows (memReadValue f d e offset) (readValue f d e offset)
      (fun r => (r.1, r.2.map (·.value))) := by
  unfold memReadValue readValue
  split
  · exact follows_fail _
  · refine follows_step fun _ => follows_step fun b => follows_stepOf fun type => ?_
    cases classify type with
    | multi =>
      dsimp only
      split
      · exact follows_fail _
      · refine follows_step fun _ => follows_stepOf fun n => ?_
        exact follows_bind' (memMultiLoop_follows f d e n _) fun _ => follows_ret rfl
    | undefined => exact follows_ret rfl
    | fixed size =>
      exact follows_bind' (memReadValueData_follows f d e type size) fun v => follows_ret rfl
    | «variable» =>
      refine follows_step fun _ => follows_stepOf fun n => ?_
      exact follows_bind' (memReadValueData_follows f d e type n) fun v => follows_ret rfl

theorem memReadProperty_follows (f : FileCtx) (d : DirEntry) (e : Endian) (section_ : Nat)
    (entry : Int) :
    Follows (memReadProperty f d e section_ entry) (readProperty f d e section_ entry)
      (fun r => (r.1.view, r.2)) := by
  unfold memReadProperty readProperty
  refine follows_step fun _ => ?_
  refine follows_skip follows_alloc fun block => ?_
  refine follows_bind' (view := id) (follows_onError ?_ (frees_release _)) fun r => ?_
  · refine follows_step fun r => ?_
    obtain ⟨id, off⟩ := r
    dsimp only
    split
    · exact follows_fail _
    · exact follows_step fun _ => follows_ret rfl
  · refine follows_bind' (follows_onError (memReadValue_follows f d e _) (frees_release _))
      fun v => ?_
    refine follows_skip (follows_onError follows_ask (frees_freeValue _)) fun _ => ?_
    exact follows_ret rfl

theorem memPropsLoop_follows (f : FileCtx) (d : DirEntry) (e : Endian) (section_ : Nat) :
    ∀ n entry values,
    FollowsFlag (memPropsLoop f d e section_ n entry values)
      (do
        let rest ← propsLoop f d e section_ n entry
        pure (values.map (·.view) ++ rest) : Reader (List PropValue))
      (·.2) (fun r => r.1.map (·.view))
  | 0, _, values => by
    refine followsFlag_congr (followsFlag_pure rfl) fun s => ?_
    simp [propsLoop, bind, Reader.bind, pure]
  | n + 1, entry, values => by
    unfold memPropsLoop
    refine followsFlag_congr (follows_attempt (memReadProperty_follows f d e section_ entry)
      (w := fun r => (do
        let rest ← propsLoop f d e section_ n r.2
        pure (values.map (·.view) ++ r.1 :: rest) : Reader (List PropValue))) (fun r => ?_)
      ⟨_, rfl, rfl⟩) fun s => ?_
    · refine followsFlag_congr (memPropsLoop_follows f d e section_ n r.2 (values ++ [r.1]))
        fun s => ?_
      simp
    · rw [propsLoop_succ]
      simp only [bind, Reader.bind, pure, stepBind]
      rcases readProperty f d e section_ entry s with ⟨r, s⟩
      cases r <;> try rfl
      dsimp only
      rcases propsLoop f d e section_ n _ s with ⟨r, s⟩
      cases r <;> rfl

theorem memReadSection_follows (f : FileCtx) (d : DirEntry) (e : Endian) (offset : Nat) :
    FollowsFlag (memReadSection f d e offset) (readSection f d e offset) (·.2)
      (fun r => r.1.map (·.view)) := by
  unfold memReadSection
  refine followsFlag_congr (follows_attempt (v := (do
      seekTo d offset
      let b ← readExactly f d 8
      Reader.of (rd32 e b 4) : Reader Nat)) (view := id)
    (w := fun n => propsLoop f d e offset n (offset + 8)) ?_ (fun n => ?_)
    ⟨_, rfl, rfl⟩) fun s => ?_
  · refine follows_step fun _ => follows_step fun _ => ?_
    exact follows_of _
  · refine followsFlag_congr (memPropsLoop_follows f d e offset n _ []) fun s => ?_
    simp only [bind, Reader.bind, id, List.map_nil, List.nil_append]
    rcases propsLoop f d e offset n _ s with ⟨r, s⟩
    cases r <;> rfl
  · simp only [readSection, bind, Reader.bind, pure, stepBind]
    rcases seekTo d offset s with ⟨r, s⟩
    cases r <;> try rfl
    dsimp only
    rcases readExactly f d 8 s with ⟨r, s⟩
    cases r <;> try rfl
    dsimp only
    rcases Reader.of (rd32 e _ 4) s with ⟨r, s⟩
    cases r <;> rfl

theorem memReadSectionEntry_follows (f : FileCtx) (d : DirEntry) (e : Endian) (entry : Int) :
    Follows (memReadSectionEntry f d e entry) (readOneSection f d e entry)
      (fun r => (r.1.view, r.2)) := by
  unfold memReadSectionEntry readOneSection
  refine follows_skip (m := memInitialize) ?_ fun p => ?_
  · unfold memInitialize
    refine follows_skip follows_alloc fun b => ?_
    refine follows_skip (follows_onError follows_alloc (frees_release b)) fun a => ?_
    exact follows_pure (b, a) (fun _ => ())
  · obtain ⟨block, array⟩ := p
    refine follows_bind' (view := id) (follows_onError ?_ frees_pure) fun r => ?_
    · unfold readSectionHead
      refine follows_step fun _ => follows_step fun r => follows_step fun _ => ?_
      exact follows_ret rfl
    · rw [reader_bind]
      refine follows_flag (memReadSection_follows f d e _) (fun v hv => ?_) (fun v hv => ?_)
      · obtain ⟨values, ok⟩ := v
        dsimp only at hv ⊢
        subst hv
        refine follows_skip (follows_onError follows_ask frees_pure) fun _ => ?_
        exact follows_ret rfl
      · obtain ⟨values, ok⟩ := v
        dsimp only at hv ⊢
        subst hv
        intro s h
        exact ⟨.refl h, .inr ⟨rfl, rfl⟩⟩

theorem memSectionsLoop_follows (f : FileCtx) (d : DirEntry) (e : Endian) :
    ∀ n entry secs,
    FollowsFlag (memSectionsLoop f d e n entry secs)
      (do
        let rest ← sectionsLoop f d e n entry
        pure (secs.map (·.view) ++ rest) : Reader (List PropSection))
      (·.2) (fun r => r.1.map (·.view))
  | 0, _, values => by
    refine followsFlag_congr (followsFlag_pure rfl) fun s => ?_
    simp [sectionsLoop, bind, Reader.bind, pure]
  | n + 1, entry, secs => by
    unfold memSectionsLoop
    refine followsFlag_congr (follows_attempt (memReadSectionEntry_follows f d e entry)
      (w := fun r => (do
        let rest ← sectionsLoop f d e n r.2
        pure (secs.map (·.view) ++ r.1 :: rest) : Reader (List PropSection))) (fun r => ?_)
      ⟨_, rfl, rfl⟩) fun s => ?_
    · refine followsFlag_congr (memSectionsLoop_follows f d e n r.2 (secs ++ [r.1]))
        fun s => ?_
      simp
    · rw [sectionsLoop_succ]
      simp only [bind, Reader.bind, pure, stepBind]
      rcases readOneSection f d e entry s with ⟨r, s⟩
      cases r <;> try rfl
      dsimp only
      rcases sectionsLoop f d e n _ s with ⟨r, s⟩
      cases r <;> rfl

theorem memReadSet_follows (f : FileCtx) (d : DirEntry) :
    FollowsFlag (memReadSet f d) (readSet f d) (·.2.2)
      (fun r => ⟨r.1, r.2.1.map (·.view)⟩) := by
  unfold memReadSet
  rw [setHeader_lift]
  refine followsFlag_congr (follows_attempt (v := setHeader f d) (view := id)
    (w := fun p => (do
      let sections ← sectionsLoop f d p.1 p.2.2 28
      pure ⟨p.2.1, sections⟩ : Reader PropSet)) (follows_lift _) (fun p => ?_)
    ⟨_, rfl, rfl⟩) fun s => ?_
  · obtain ⟨e, cls, n⟩ := p
    intro s h
    obtain ⟨h1, h2⟩ := memSectionsLoop_follows f d e n 28 [] s h
    dsimp only [id]
    rw [mem_bind]
    revert h1 h2
    simp only [Mem.bind, bind, Reader.bind, pure, List.map_nil, List.nil_append]
    rcases memSectionsLoop f d e n 28 [] s h with ⟨r, s', h'⟩
    rcases sectionsLoop f d e n 28 s with ⟨q, s''⟩
    intro h1 h2
    dsimp only at h1 h2
    rcases h2 with ⟨⟨a, rfl, hf⟩, h2⟩ | ⟨h2, h3⟩
    · exact ⟨h1, .inl ⟨⟨_, rfl, hf⟩, h2⟩⟩
    · cases r <;> cases q <;> dsimp only [SameFlag] at h2 h3 ⊢ <;>
        first
          | exact h3.elim
          | (simp at h3; done)
          | (refine ⟨h1, .inr ⟨h2, ?_⟩⟩; split at h3 <;> rename_i hh <;> simp_all)
          | exact ⟨h1, .inr ⟨h2, rfl⟩⟩
  · simp only [readSet, setHeader, bind, Reader.bind, pure, stepBind]
    rcases seekTo d 0 s with ⟨r, s⟩
    cases r <;> try rfl
    dsimp only
    rcases readExactly f d 28 s with ⟨r, s⟩
    cases r <;> try rfl
    dsimp only
    rcases Reader.of (readSetHeader _) s with ⟨r, s⟩
    cases r <;> rfl

/-- With memory for every request the program reads what `readSet` describes. -/
theorem memGetSet_follows (f : FileCtx) (d : DirEntry) :
    Follows (memGetSet f d) (readSet f d) (·.view) := by
  unfold memGetSet
  refine follows_skip (m := memInitialize) ?_ fun p => ?_
  · unfold memInitialize
    refine follows_skip follows_alloc fun b => ?_
    refine follows_skip (follows_onError follows_alloc (frees_release b)) fun a => ?_
    exact follows_pure (b, a) (fun _ => ())
  · obtain ⟨block, array⟩ := p
    refine follows_congr (follows_flag (w := fun c s => (.ok c, s)) (memReadSet_follows f d)
      (fun v hv => ?_) (fun v hv => ?_)) fun s => ?_
    · obtain ⟨cls, secs, ok⟩ := v
      dsimp only at hv ⊢
      subst hv
      intro s h
      exact ⟨.refl h, .inr ⟨rfl, rfl⟩⟩
    · obtain ⟨cls, secs, ok⟩ := v
      dsimp only at hv ⊢
      subst hv
      exact follows_congr (follows_bind (w := fun c s => (.ok c, s)) (follows_onError
        (v := fun s => (.err, s)) (follows_fail (γ := PropSet) fun _ => ⟨cls, secs.map (·.view)⟩)
        (frees_freeSet _)) fun _ => follows_pure _ MSet.view) fun s => rfl
    · unfold stepBind
      rcases readSet f d s with ⟨r, s⟩
      cases r <;> rfl

end Lemmas
end Olecf
