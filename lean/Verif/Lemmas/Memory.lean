import Verif.Spec.MemSet
import Mathlib.Data.List.Perm.Basic

/-! Reasoning about programs that allocate. -/

namespace Olecf
namespace Lemmas

open Olecf.Spec

/-- A heap as programs without errors leave it. -/
abbrev HeapOk := Sound

/-- Started with the blocks `pre` (and others), the program ends with `post` on success and with
  some `l` of `exc` on failure; the others are untouched. -/
def Triple {σ α : Type} (pre : List Nat) (m : Mem σ α) (post : α → List Nat)
    (exc : List Nat → Prop) : Prop :=
  ∀ s h rest, HeapOk h → h.live.Perm (pre ++ rest) →
    HeapOk (m s h).2.2 ∧ (m s h).2.2.grant = h.grant ∧
    (∀ a, (m s h).1 = .ok a → (m s h).2.2.live.Perm (post a ++ rest)) ∧
    ((m s h).1 = .err → ∃ l, exc l ∧ (m s h).2.2.live.Perm (l ++ rest))

variable {σ α β : Type}

theorem mem_bind (m : Mem σ α) (k : α → Mem σ β) : (m >>= k) = Mem.bind m k := rfl

theorem triple_pure {pre : List Nat} {a : α} {post : α → List Nat} {exc : List Nat → Prop}
    (h : pre.Perm (post a)) : Triple pre (pure a : Mem σ α) post exc := by
  intro s hp rest hok hl
  refine ⟨hok, rfl, ?_, fun he => ?_⟩
  · intro b hb
    have : b = a := by
      have : (Res.ok a : Res α) = .ok b := hb
      injection this with h; exact h.symm
    subst this
    exact hl.trans (h.append_right rest)
  · exact absurd (show (Res.ok a : Res α) = .err from he) (by simp)

theorem triple_of {pre : List Nat} {r : Res α} {exc : List Nat → Prop} (h : exc pre) :
    Triple pre (Mem.of r : Mem σ α) (fun _ => pre) exc := by
  intro s hp rest hok hl
  exact ⟨hok, rfl, fun _ _ => hl, fun _ => ⟨pre, h, hl⟩⟩

theorem triple_fail {pre : List Nat} {post : α → List Nat} {exc : List Nat → Prop} (h : exc pre) :
    Triple pre (Mem.fail : Mem σ α) post exc := by
  intro s hp rest hok hl
  exact ⟨hok, rfl, fun _ h => (by cases h), fun _ => ⟨pre, h, hl⟩⟩

theorem triple_lift {pre : List Nat} {m : σ → Res α × σ} {exc : List Nat → Prop} (h : exc pre) :
    Triple pre (Mem.lift m : Mem σ α) (fun _ => pre) exc := by
  intro s hp rest hok hl
  exact ⟨hok, rfl, fun _ _ => hl, fun _ => ⟨pre, h, hl⟩⟩

theorem triple_bind {pre : List Nat} {m : Mem σ α} {k : α → Mem σ β} {mid : α → List Nat}
    {post : β → List Nat} {exc : List Nat → Prop} (hm : Triple pre m mid exc)
    (hk : ∀ a, Triple (mid a) (k a) post exc) : Triple pre (m >>= k) post exc := by
  intro s h rest hok hl
  obtain ⟨h1, h2, h3, h4⟩ := hm s h rest hok hl
  rw [mem_bind]
  unfold Mem.bind
  revert h1 h2 h3 h4
  rcases m s h with ⟨r, s', h'⟩
  intro h1 h2 h3 h4
  cases r with
  | ok a =>
    obtain ⟨k1, k2, k3, k4⟩ := hk a s' h' rest h1 (h3 a rfl)
    exact ⟨k1, k2.trans h2, k3, k4⟩
  | err => exact ⟨h1, h2, fun _ h => (by cases h), fun _ => h4 rfl⟩
  | ub => exact ⟨h1, h2, fun _ h => (by cases h), fun h => (by cases h)⟩
  | hang => exact ⟨h1, h2, fun _ h => (by cases h), fun h => (by cases h)⟩

/-- Sequencing, with what is known of the value. -/
theorem triple_bind_of {pre : List Nat} {r : Res α} {k : α → Mem σ β}
    {post : β → List Nat} {exc : List Nat → Prop} (he : r = .err → exc pre)
    (hk : ∀ a, r = .ok a → Triple pre (k a) post exc) : Triple pre (Mem.of r >>= k) post exc := by
  intro s h rest hok hl
  rw [mem_bind]
  cases r with
  | ok a => exact hk a rfl s h rest hok hl
  | err => exact ⟨hok, rfl, fun _ h => (by cases h), fun _ => ⟨pre, he rfl, hl⟩⟩
  | ub => exact ⟨hok, rfl, fun _ h => (by cases h), fun h => (by cases h)⟩
  | hang => exact ⟨hok, rfl, fun _ h => (by cases h), fun h => (by cases h)⟩

/-- Sequencing after a step that does not allocate, with what is known of the value. -/
theorem triple_bind_lift {pre : List Nat} {m : σ → Res α × σ} {k : α → Mem σ β}
    {post : β → List Nat} {exc : List Nat → Prop} (he : exc pre)
    (hk : ∀ a, (∃ s, (m s).1 = .ok a) → Triple pre (k a) post exc) :
    Triple pre (Mem.lift m >>= k) post exc := by
  intro s h rest hok hl
  rw [mem_bind]
  unfold Mem.bind Mem.lift
  cases hr : m s with
  | mk r s' =>
    cases r with
    | ok a => exact hk a ⟨s, by rw [hr]⟩ s' h rest hok hl
    | err => exact ⟨hok, rfl, fun _ h => (by cases h), fun _ => ⟨pre, he, hl⟩⟩
    | ub => exact ⟨hok, rfl, fun _ h => (by cases h), fun h => (by cases h)⟩
    | hang => exact ⟨hok, rfl, fun _ h => (by cases h), fun h => (by cases h)⟩

theorem triple_weaken {pre pre' : List Nat} {m : Mem σ α} {post post' : α → List Nat}
    {exc exc' : List Nat → Prop} (h : Triple pre m post exc) (hpre : pre'.Perm pre)
    (hpost : ∀ a, (post a).Perm (post' a)) (hexc : ∀ l, exc l → exc' l) :
    Triple pre' m post' exc' := by
  intro s hp rest hok hl
  obtain ⟨h1, h2, h3, h4⟩ := h s hp rest hok (hl.trans (hpre.append_right rest))
  refine ⟨h1, h2, fun a ha => (h3 a ha).trans ((hpost a).append_right rest), fun he => ?_⟩
  obtain ⟨l, hl, hp⟩ := h4 he
  exact ⟨l, hexc l hl, hp⟩

/-- The frame: blocks the program does not know. -/
theorem triple_frame {pre : List Nat} (fr : List Nat) {m : Mem σ α} {post : α → List Nat}
    {exc : List Nat → Prop} (h : Triple pre m post exc) :
    Triple (pre ++ fr) m (fun a => post a ++ fr) (fun l => ∃ l', exc l' ∧ l.Perm (l' ++ fr)) := by
  intro s hp rest hok hl
  obtain ⟨h1, h2, h3, h4⟩ := h s hp (fr ++ rest) hok (by rwa [List.append_assoc] at hl)
  refine ⟨h1, h2, fun a ha => by rw [List.append_assoc]; exact h3 a ha, fun he => ?_⟩
  obtain ⟨l, hl, hp⟩ := h4 he
  exact ⟨l ++ fr, ⟨l, hl, .refl _⟩, by rw [List.append_assoc]; exact hp⟩

theorem triple_alloc {pre : List Nat} {exc : List Nat → Prop} (h : exc pre) :
    Triple pre (Mem.alloc : Mem σ Nat) (fun b => b :: pre) exc := by
  intro s hp rest hok hl
  unfold Mem.alloc
  split
  · refine ⟨⟨hok.good, ?_, ?_⟩, rfl, ?_, fun h => (by cases h)⟩
    · refine List.nodup_cons.2 ⟨fun hm => ?_, hok.nodup⟩
      exact absurd (hok.old _ hm) (by omega)
    · intro b hb
      rcases List.mem_cons.1 hb with rfl | hb
      · exact Nat.lt_succ_self _
      · exact Nat.lt_succ_of_lt (hok.old b hb)
    · intro b hb
      cases hb
      exact hl.cons _
  · refine ⟨⟨hok.good, hok.nodup, fun b hb => Nat.lt_succ_of_lt (hok.old b hb)⟩, rfl,
      fun _ h => (by cases h), fun _ => ⟨pre, h, hl⟩⟩

theorem triple_ask {pre : List Nat} {exc : List Nat → Prop} (h : exc pre) :
    Triple pre (Mem.ask : Mem σ Unit) (fun _ => pre) exc := by
  intro s hp rest hok hl
  unfold Mem.ask
  exact ⟨⟨hok.good, hok.nodup, fun b hb => Nat.lt_succ_of_lt (hok.old b hb)⟩, rfl,
    fun _ _ => hl, fun _ => ⟨pre, h, hl⟩⟩

theorem triple_release {pre : List Nat} {b : Nat} {exc : List Nat → Prop} (hb : b ∈ pre) :
    Triple pre (Mem.release b : Mem σ Unit) (fun _ => pre.erase b) exc := by
  intro s hp rest hok hl
  have hm : b ∈ hp.live := hl.mem_iff.2 (List.mem_append_left _ hb)
  unfold Mem.release
  rw [if_pos hm]
  refine ⟨⟨hok.good, hok.nodup.erase b, fun c hc => hok.old c (List.mem_of_mem_erase hc)⟩, rfl,
    ?_, fun h => (by cases h)⟩
  intro _ _
  have := hl.erase b
  rwa [List.erase_append_left _ hb] at this

theorem triple_release_head {pre : List Nat} {b : Nat} {exc : List Nat → Prop} :
    Triple (b :: pre) (Mem.release b : Mem σ Unit) (fun _ => pre) exc := by
  have := triple_release (σ := σ) (pre := b :: pre) (b := b) (exc := exc) List.mem_cons_self
  rwa [List.erase_cons_head] at this

theorem triple_use {pre : List Nat} {b : Nat} {exc : List Nat → Prop} (hb : b ∈ pre) :
    Triple pre (Mem.use b : Mem σ Unit) (fun _ => pre) exc := by
  intro s hp rest hok hl
  have hm : b ∈ hp.live := hl.mem_iff.2 (List.mem_append_left _ hb)
  unfold Mem.use
  rw [if_pos hm]
  exact ⟨hok, rfl, fun _ _ => hl, fun h => (by cases h)⟩

theorem triple_releaseOpt {pre : List Nat} {b : Option Nat} {exc : List Nat → Prop} :
    Triple (b.toList ++ pre) (Mem.releaseOpt b : Mem σ Unit) (fun _ => pre) exc := by
  cases b with
  | none => exact triple_pure (.refl _)
  | some b => exact triple_release_head

theorem triple_realloc {pre : List Nat} {b : Option Nat} {exc : List Nat → Prop}
    (h : exc (b.toList ++ pre)) :
    Triple (b.toList ++ pre) (Mem.realloc b : Mem σ Nat) (fun n => n :: pre) exc := by
  unfold Mem.realloc
  refine triple_bind (triple_alloc h) fun n => ?_
  refine triple_bind (mid := fun _ => n :: pre) ?_ fun _ => triple_pure (.refl _)
  refine triple_weaken (triple_releaseOpt (b := b) (pre := n :: pre) (exc := exc)) ?_
    (fun _ => .refl _) (fun _ h => h)
  exact (List.perm_middle).symm

theorem triple_onError {pre : List Nat} {m : Mem σ α} {c : Mem σ Unit} {post : α → List Nat}
    {exc exc' : List Nat → Prop} (hm : Triple pre m post exc)
    (hc : ∀ l, exc l → ∃ l', exc' l' ∧ Triple l c (fun _ => l') exc') :
    Triple pre (Mem.onError m c) post exc' := by
  intro s h rest hok hl
  obtain ⟨h1, h2, h3, h4⟩ := hm s h rest hok hl
  unfold Mem.onError
  revert h1 h2 h3 h4
  rcases m s h with ⟨r, s', h'⟩
  intro h1 h2 h3 h4
  cases r with
  | ok a => exact ⟨h1, h2, h3, fun h => (by cases h)⟩
  | err =>
    obtain ⟨l, hel, hpl⟩ := h4 rfl
    obtain ⟨l', hl', ht⟩ := hc l hel
    have := triple_bind ht (fun _ => triple_fail (α := α) (post := post) hl') s' h' rest h1 hpl
    obtain ⟨k1, k2, k3, k4⟩ := this
    exact ⟨k1, k2.trans h2, k3, k4⟩
  | ub => exact ⟨h1, h2, fun _ h => (by cases h), fun h => (by cases h)⟩
  | hang => exact ⟨h1, h2, fun _ h => (by cases h), fun h => (by cases h)⟩

/-- A failure of `m` leaves the blocks `pre'`, the cleanup frees what is not in `l'`. -/
theorem triple_onError_eq {pre pre' l' : List Nat} {m : Mem σ α} {c : Mem σ Unit}
    {post : α → List Nat} {exc' : List Nat → Prop} (hm : Triple pre m post (·.Perm pre'))
    (hl' : exc' l') (hc : Triple pre' c (fun _ => l') exc') :
    Triple pre (Mem.onError m c) post exc' :=
  triple_onError hm fun _ hl => ⟨l', hl', triple_weaken hc hl (fun _ => .refl _) (fun _ h => h)⟩

theorem triple_attempt {pre l' : List Nat} {m : Mem σ α} {post : α → List Nat}
    {exc : List Nat → Prop} (hm : Triple pre m post (·.Perm l')) :
    Triple pre m.attempt (fun o => o.elim l' post) exc := by
  intro s h rest hok hl
  obtain ⟨h1, h2, h3, h4⟩ := hm s h rest hok hl
  unfold Mem.attempt
  revert h1 h2 h3 h4
  rcases m s h with ⟨r, s', h'⟩
  intro h1 h2 h3 h4
  cases r with
  | ok a =>
    refine ⟨h1, h2, fun _ h => ?_, fun h => (by cases h)⟩
    cases h
    exact h3 a rfl
  | err =>
    refine ⟨h1, h2, fun _ h => ?_, fun h => (by cases h)⟩
    cases h
    obtain ⟨l, hl, hp⟩ := h4 rfl
    exact hp.trans (hl.append_right rest)
  | ub => exact ⟨h1, h2, fun _ h => (by cases h), fun h => (by cases h)⟩
  | hang => exact ⟨h1, h2, fun _ h => (by cases h), fun h => (by cases h)⟩

theorem triple_forEach {f : α → Mem σ Unit} {blocks : α → List Nat} {exc : List Nat → Prop}
    (hf : ∀ a fr, Triple (blocks a ++ fr) (f a) (fun _ => fr) exc) :
    ∀ (l : List α) (fr : List Nat),
      Triple (l.flatMap blocks ++ fr) (Mem.forEach f l) (fun _ => fr) exc
  | [], fr => triple_pure (.refl _)
  | a :: l, fr => by
    unfold Mem.forEach
    refine triple_bind (mid := fun _ => l.flatMap blocks ++ fr) ?_ fun _ =>
      triple_forEach hf l fr
    have := hf a (l.flatMap blocks ++ fr)
    rwa [← List.append_assoc] at this

/-! ### Values -/

/-- If every request is granted the program computes `v` from its state, up to `view`. -/
def Computes {σ α γ : Type} (m : Mem σ α) (v : σ → Res γ × σ) (view : α → γ) : Prop :=
  ∀ s h, Ample h → Ample (m s h).2.2 ∧ (m s h).2.1 = (v s).2 ∧
    match (m s h).1 with
    | .ok a => (v s).1 = .ok (view a)
    | .err => (v s).1 = .err
    | .ub => (v s).1 = .ub
    | .hang => (v s).1 = .hang

/-- As `Computes`, for a program that gives its failure as a value. -/
def ComputesFlag {σ α γ : Type} (m : Mem σ α) (v : σ → Res γ × σ) (flag : α → Bool)
    (view : α → γ) : Prop :=
  ∀ s h, Ample h → Ample (m s h).2.2 ∧ (m s h).2.1 = (v s).2 ∧
    match (m s h).1 with
    | .ok a => if flag a then (v s).1 = .ok (view a) else (v s).1 = .err
    | .err => False
    | .ub => (v s).1 = .ub
    | .hang => (v s).1 = .hang

/-- A program that does nothing but free. -/
def Quiet (c : Mem σ Unit) : Prop :=
  ∀ s h, (c s h).1 = .ok () ∧ (c s h).2.1 = s ∧ (c s h).2.2.grant = h.grant

/-- Sequencing of steps on a state. -/
def stepBind {γ δ : Type} (v : σ → Res γ × σ) (w : γ → σ → Res δ × σ) : σ → Res δ × σ := fun s =>
  match v s with
  | (.ok a, s) => w a s
  | (.err, s) => (.err, s)
  | (.ub, s) => (.ub, s)
  | (.hang, s) => (.hang, s)

variable {γ δ : Type}

theorem computes_bind {m : Mem σ α} {k : α → Mem σ β} {v : σ → Res γ × σ}
    {w : γ → σ → Res δ × σ} {view : α → γ} {view' : β → δ} (hm : Computes m v view)
    (hk : ∀ a, Computes (k a) (w (view a)) view') :
    Computes (m >>= k) (stepBind v w) view' := by
  intro s h ha
  obtain ⟨h1, h2, h3⟩ := hm s h ha
  rw [mem_bind]
  unfold Mem.bind stepBind
  revert h1 h2 h3
  rcases m s h with ⟨r, s', h'⟩
  rcases v s with ⟨r', s''⟩
  intro h1 h2 h3
  dsimp only at h1 h2 h3
  subst h2
  cases r <;> dsimp only at h3 ⊢ <;> subst h3 <;> dsimp only
  · exact hk _ s' h' h1
  all_goals exact ⟨h1, rfl, rfl⟩

/-- Sequencing after a step whose failure is a value. -/
theorem computes_attempt {m : Mem σ α} {k : Option α → Mem σ β} {v : σ → Res γ × σ}
    {w : γ → σ → Res δ × σ} {view : α → γ} {flag : β → Bool} {view' : β → δ}
    (hm : Computes m v view)
    (hk : ∀ a, ComputesFlag (k (some a)) (w (view a)) flag view')
    (hn : ∃ b, k none = pure b ∧ flag b = false) :
    ComputesFlag (m.attempt >>= k) (stepBind v w) flag view' := by
  intro s h ha
  obtain ⟨h1, h2, h3⟩ := hm s h ha
  rw [mem_bind]
  unfold Mem.bind stepBind Mem.attempt
  revert h1 h2 h3
  rcases m s h with ⟨r, s', h'⟩
  rcases v s with ⟨r', s''⟩
  intro h1 h2 h3
  dsimp only at h1 h2 h3
  subst h2
  cases r <;> dsimp only at h3 ⊢ <;> subst h3 <;> dsimp only
  · exact hk _ s' h' h1
  · obtain ⟨b, hb, hf⟩ := hn
    rw [hb]
    refine ⟨h1, rfl, ?_⟩
    show if flag b then _ else _
    rw [hf]
    rfl
  all_goals exact ⟨h1, rfl, rfl⟩

theorem computes_pure (a : α) (view : α → γ) :
    Computes (pure a : Mem σ α) (fun s => (.ok (view a), s)) view := fun _ _ ha => ⟨ha, rfl, rfl⟩

theorem computesFlag_pure {a : α} {flag : α → Bool} {view : α → γ} (hf : flag a = true) :
    ComputesFlag (pure a : Mem σ α) (fun s => (.ok (view a), s)) flag view := by
  intro s h ha
  refine ⟨ha, rfl, ?_⟩
  show if flag a then _ else _
  rw [hf]
  rfl

theorem computes_fail (view : α → γ) :
    Computes (Mem.fail : Mem σ α) (fun s => (.err, s)) view := fun _ _ ha => ⟨ha, rfl, rfl⟩

theorem computes_lift (v : σ → Res α × σ) : Computes (Mem.lift v) v id := by
  intro s h ha
  refine ⟨ha, rfl, ?_⟩
  show match (v s).1 with | .ok a => _ | .err => _ | .ub => _ | .hang => _
  cases (v s).1 <;> rfl

theorem computes_of (r : Res α) : Computes (Mem.of r : Mem σ α) (fun s => (r, s)) id := by
  intro s h ha
  refine ⟨ha, rfl, ?_⟩
  show match r with | .ok a => _ | .err => _ | .ub => _ | .hang => _
  cases r <;> rfl

theorem computes_alloc : Computes (Mem.alloc : Mem σ Nat) (fun s => (.ok (), s)) (fun _ => ()) := by
  intro s h ha
  unfold Mem.alloc
  rw [if_pos (ha _)]
  exact ⟨ha, rfl, rfl⟩

theorem computes_ask : Computes (Mem.ask : Mem σ Unit) (fun s => (.ok (), s)) (fun _ => ()) := by
  intro s h ha
  unfold Mem.ask
  rw [if_pos (ha _)]
  exact ⟨ha, rfl, rfl⟩

theorem quiet_release (b : Nat) : Quiet (Mem.release b : Mem σ Unit) := by
  intro s h
  unfold Mem.release
  split <;> exact ⟨rfl, rfl, rfl⟩

theorem quiet_use (b : Nat) : Quiet (Mem.use b : Mem σ Unit) := by
  intro s h
  unfold Mem.use
  split <;> exact ⟨rfl, rfl, rfl⟩

theorem quiet_pure : Quiet (pure () : Mem σ Unit) := fun _ _ => ⟨rfl, rfl, rfl⟩

theorem quiet_releaseOpt (b : Option Nat) : Quiet (Mem.releaseOpt b : Mem σ Unit) := by
  cases b
  · exact quiet_pure
  · exact quiet_release _

theorem quiet_bind {c : Mem σ Unit} {d : Unit → Mem σ Unit} (hc : Quiet c) (hd : Quiet (d ())) :
    Quiet (c >>= d) := by
  intro s h
  obtain ⟨h1, h2, h3⟩ := hc s h
  rw [mem_bind]
  unfold Mem.bind
  revert h1 h2 h3
  rcases c s h with ⟨r, s', h'⟩
  intro h1 h2 h3
  dsimp only at h1 h2 h3
  subst h1 h2
  obtain ⟨k1, k2, k3⟩ := hd s' h'
  exact ⟨k1, k2, k3.trans h3⟩

theorem quiet_forEach {f : α → Mem σ Unit} (hf : ∀ a, Quiet (f a)) :
    ∀ l, Quiet (Mem.forEach f l)
  | [] => quiet_pure
  | a :: l => quiet_bind (hf a) (quiet_forEach hf l)

theorem computes_quiet {c : Mem σ Unit} (hc : Quiet c) :
    Computes c (fun s => (.ok (), s)) (fun _ => ()) := by
  intro s h ha
  obtain ⟨h1, h2, h3⟩ := hc s h
  refine ⟨fun n => by rw [h3]; exact ha n, h2, ?_⟩
  rw [h1]

theorem computes_onError {m : Mem σ α} {c : Mem σ Unit} {v : σ → Res γ × σ} {view : α → γ}
    (hm : Computes m v view) (hc : Quiet c) : Computes (m.onError c) v view := by
  intro s h ha
  obtain ⟨h1, h2, h3⟩ := hm s h ha
  unfold Mem.onError
  revert h1 h2 h3
  rcases m s h with ⟨r, s', h'⟩
  intro h1 h2 h3
  dsimp only at h1 h2 h3
  cases r with
  | err =>
    obtain ⟨k1, k2, k3⟩ := hc s' h'
    dsimp only [Mem.bind]
    revert k1 k2 k3
    rcases c s' h' with ⟨r, s'', h''⟩
    intro k1 k2 k3
    dsimp only at k1 k2 k3
    subst k1 k2
    exact ⟨fun n => by show h''.grant n = true; rw [k3]; exact h1 n, h2, h3⟩
  | ok a => exact ⟨h1, h2, h3⟩
  | ub => exact ⟨h1, h2, h3⟩
  | hang => exact ⟨h1, h2, h3⟩

theorem computes_congr {m : Mem σ α} {v w : σ → Res γ × σ} {view : α → γ} (h : Computes m v view)
    (hv : ∀ s, v s = w s) : Computes m w view := by
  intro s hp ha
  rw [← hv]
  exact h s hp ha

theorem computesFlag_congr {m : Mem σ α} {v w : σ → Res γ × σ} {flag : α → Bool} {view : α → γ}
    (h : ComputesFlag m v flag view) (hv : ∀ s, v s = w s) : ComputesFlag m w flag view := by
  intro s hp ha
  rw [← hv]
  exact h s hp ha

/-- After a step that only allocates or frees. -/
theorem computes_skip {m : Mem σ α} {k : α → Mem σ β} {w : σ → Res δ × σ} {view' : β → δ}
    (hm : Computes m (fun s => (.ok (), s)) (fun _ => ()))
    (hk : ∀ a, Computes (k a) w view') : Computes (m >>= k) w view' :=
  computes_congr (computes_bind (w := fun _ => w) hm hk) (fun _ => rfl)

theorem computes_map {m : Mem σ α} {v : σ → Res γ × σ} {view : α → γ} {k : α → β} {f : γ → δ}
    {view' : β → δ} (hm : Computes m v view) (hf : ∀ a, view' (k a) = f (view a)) :
    Computes (m >>= fun a => pure (k a)) (stepBind v fun c s => (.ok (f c), s)) view' :=
  computes_bind hm fun a => by rw [← hf a]; exact computes_pure (k a) view'

/-- Two steps that do not allocate are one. -/
theorem lift_bind (v : σ → Res α × σ) (w : α → σ → Res β × σ) :
    ((Mem.lift v : Mem σ α) >>= fun a => Mem.lift (w a)) = Mem.lift (stepBind v w) := by
  funext s h
  rw [mem_bind]
  unfold Mem.bind Mem.lift stepBind
  rcases v s with ⟨r, s'⟩
  cases r <;> rfl

/-- A program that leaves its state alone. -/
def Stays (m : Mem σ α) : Prop := ∀ s h, (m s h).2.1 = s

theorem stays_bind {m : Mem σ α} {k : α → Mem σ β} (hm : Stays m) (hk : ∀ a, Stays (k a)) :
    Stays (m >>= k) := by
  intro s h
  have h1 := hm s h
  rw [mem_bind]
  unfold Mem.bind
  revert h1
  rcases m s h with ⟨r, s', h'⟩
  intro h1
  dsimp only at h1
  subst h1
  cases r
  · exact hk _ _ _
  all_goals rfl

theorem stays_pure (a : α) : Stays (pure a : Mem σ α) := fun _ _ => rfl

theorem stays_of (r : Res α) : Stays (Mem.of r : Mem σ α) := fun _ _ => rfl

theorem stays_alloc : Stays (Mem.alloc : Mem σ Nat) := by
  intro s h
  unfold Mem.alloc
  split <;> rfl

theorem stays_quiet {c : Mem σ Unit} (hc : Quiet c) : Stays c := fun s h => (hc s h).2.1

theorem stays_onError {m : Mem σ α} {c : Mem σ Unit} (hm : Stays m) (hc : Stays c) :
    Stays (m.onError c) := by
  intro s h
  have h1 := hm s h
  unfold Mem.onError
  revert h1
  rcases m s h with ⟨r, s', h'⟩
  intro h1
  dsimp only at h1
  subst h1
  cases r
  · rfl
  · exact stays_bind hc (fun _ => stays_of _) s' h'
  all_goals rfl

/-! ### Programs that may be refused memory -/

/-- The outcome of a program against that of the computation it does: a success computes the value;
  without memory it may fail although the computation does not.  A program that can give its failure
  as a value does so. -/
def Agrees (ample : Prop) (r : Res α) (v : Res γ) (flag : α → Bool) (view : α → γ) : Prop :=
  match r with
  | .ok a => if flag a then v = .ok (view a) else (ample → v = .err)
  | .err => (∀ a, flag a = true) ∧ (ample → v = .err)
  | .ub => v = .ub
  | .hang => v = .hang

/-- The program leaves its state alone and does what `v` computes, or it fails; it gives `v` if
  every request is granted. -/
def Tracks (m : Mem σ α) (v : Res γ) (flag : α → Bool) (view : α → γ) : Prop :=
  ∀ s h, (m s h).2.1 = s ∧ (m s h).2.2.grant = h.grant ∧ Agrees (Ample h) (m s h).1 v flag view

/-- The program fails, with a return value or without. -/
def Fails (m : Mem σ α) (flag : α → Bool) : Prop :=
  ∀ s h, (m s h).2.1 = s ∧ (m s h).2.2.grant = h.grant ∧
    (((m s h).1 = .err ∧ ∀ a, flag a = true) ∨ ∃ a, (m s h).1 = .ok a ∧ flag a = false)

theorem ample_congr {h h' : Heap} (hg : h'.grant = h.grant) : Ample h' ↔ Ample h := by
  unfold Ample; rw [hg]

theorem fails_tracks {m : Mem σ α} {flag : α → Bool} {view : α → γ} (hm : Fails m flag) :
    Tracks m (.err : Res γ) flag view := by
  intro s h
  obtain ⟨h1, h2, h3⟩ := hm s h
  refine ⟨h1, h2, ?_⟩
  rcases h3 with ⟨h3, hf⟩ | ⟨a, h3, hf⟩
  · rw [h3]; exact ⟨hf, fun _ => rfl⟩
  · rw [h3]
    show if flag a then _ else _
    rw [hf]
    exact fun _ => rfl

theorem fails_pure {a : α} {flag : α → Bool} (hf : flag a = false) :
    Fails (pure a : Mem σ α) flag := fun _ _ => ⟨rfl, rfl, .inr ⟨a, rfl, hf⟩⟩

theorem fails_fail : Fails (Mem.fail : Mem σ α) (fun _ => true) :=
  fun _ _ => ⟨rfl, rfl, .inl ⟨rfl, fun _ => rfl⟩⟩

theorem fails_quiet {c : Mem σ Unit} {k : Unit → Mem σ α} {flag : α → Bool} (hc : Quiet c)
    (hk : Fails (k ()) flag) : Fails (c >>= k) flag := by
  intro s h
  obtain ⟨h1, h2, h3⟩ := hc s h
  rw [mem_bind]
  unfold Mem.bind
  revert h1 h2 h3
  rcases c s h with ⟨r, s', h'⟩
  intro h1 h2 h3
  dsimp only at h1 h2 h3
  subst h1 h2
  obtain ⟨k1, k2, k3⟩ := hk s' h'
  exact ⟨k1, k2.trans h3, k3⟩

theorem tracks_pure {a : α} {flag : α → Bool} {view : α → γ} (hf : flag a = true) :
    Tracks (pure a : Mem σ α) (.ok (view a)) flag view := by
  intro s h
  refine ⟨rfl, rfl, ?_⟩
  show if flag a then _ else _
  rw [hf]
  rfl

theorem tracks_ret {a : α} {c : γ} {flag : α → Bool} {view : α → γ} (hf : flag a = true)
    (hc : view a = c) : Tracks (pure a : Mem σ α) (.ok c) flag view := hc ▸ tracks_pure hf

theorem tracks_of (r : Res α) : Tracks (Mem.of r : Mem σ α) r (fun _ => true) id := by
  intro s h
  refine ⟨rfl, rfl, ?_⟩
  show Agrees (Ample h) r r _ _
  cases r
  · rfl
  · exact ⟨fun _ => rfl, fun _ => rfl⟩
  all_goals rfl

theorem tracks_alloc : Tracks (Mem.alloc : Mem σ Nat) (.ok ()) (fun _ => true) (fun _ => ()) := by
  intro s h
  unfold Mem.alloc
  split
  · exact ⟨rfl, rfl, rfl⟩
  · exact ⟨rfl, rfl, fun _ => rfl, fun ha => absurd (ha _) (by assumption)⟩

theorem tracks_ask : Tracks (Mem.ask : Mem σ Unit) (.ok ()) (fun _ => true) (fun _ => ()) := by
  intro s h
  refine ⟨rfl, rfl, ?_⟩
  show Agrees (Ample h) (if h.grant h.asked then .ok () else .err) _ _ _
  split
  · rfl
  · exact ⟨fun _ => rfl, fun ha => absurd (ha _) (by assumption)⟩

/-- Sequencing; `flag` is the return value of the first step. -/
theorem tracks_bind {m : Mem σ α} {k : α → Mem σ β} {v : Res γ} {w : γ → Res δ}
    {flag : α → Bool} {view : α → γ} {flag' : β → Bool} {view' : β → δ}
    (hm : Tracks m v flag view)
    (hk : ∀ a, flag a = true → v = .ok (view a) → Tracks (k a) (w (view a)) flag' view')
    (hn : ∀ a, flag a = false → Fails (k a) flag')
    (hc : (∀ a, flag a = true) → ∀ b, flag' b = true) :
    Tracks (m >>= k) (v >>= w) flag' view' := by
  intro s h
  obtain ⟨h1, h2, h3⟩ := hm s h
  rw [mem_bind]
  unfold Mem.bind
  revert h1 h2 h3
  rcases m s h with ⟨r, s', h'⟩
  intro h1 h2 h3
  dsimp only at h1 h2
  subst h1
  cases r with
  | ok a =>
    change if flag a then _ else _ at h3
    dsimp only
    cases hf : flag a with
    | true =>
      rw [hf] at h3
      change v = .ok (view a) at h3
      obtain ⟨k1, k2, k3⟩ := hk a hf h3 s' h'
      subst h3
      rw [show Ample h' = Ample h from propext (ample_congr h2)] at k3
      exact ⟨k1, k2.trans h2, k3⟩
    | false =>
      rw [hf] at h3
      change Ample h → v = .err at h3
      obtain ⟨k1, k2, k3⟩ := hn a hf s' h'
      refine ⟨k1, k2.trans h2, ?_⟩
      have he : Ample h → (v >>= w) = .err := fun ha => by rw [h3 ha]; rfl
      rcases k3 with ⟨k3, hb⟩ | ⟨b, k3, hb⟩
      · rw [k3]; exact ⟨hb, he⟩
      · rw [k3]
        show if flag' b then _ else _
        rw [hb]
        exact he
  | err => exact ⟨rfl, h2, hc h3.1, fun ha => by rw [h3.2 ha]; rfl⟩
  | ub =>
    change v = .ub at h3
    subst h3
    exact ⟨rfl, h2, rfl⟩
  | hang =>
    change v = .hang at h3
    subst h3
    exact ⟨rfl, h2, rfl⟩

theorem tracks_attempt {m : Mem σ α} {v : Res γ} {view : α → γ} {view' : Option α → γ}
    (hv : ∀ a, view' (some a) = view a) (hm : Tracks m v (fun _ => true) view) :
    Tracks m.attempt v Option.isSome view' := by
  intro s h
  obtain ⟨h1, h2, h3⟩ := hm s h
  unfold Mem.attempt
  revert h1 h2 h3
  rcases m s h with ⟨r, s', h'⟩
  intro h1 h2 h3
  dsimp only at h1 h2
  subst h1
  cases r with
  | ok a => exact ⟨rfl, h2, by show v = .ok (view' (some a)); rw [hv]; exact h3⟩
  | err => exact ⟨rfl, h2, h3.2⟩
  | ub => exact ⟨rfl, h2, h3⟩
  | hang => exact ⟨rfl, h2, h3⟩

theorem quiet_bind_eq {c : Mem σ Unit} (hc : Quiet c) (k : Unit → Mem σ β) (s : σ) (h : Heap) :
    ∃ h', h'.grant = h.grant ∧ (c >>= k) s h = k () s h' := by
  obtain ⟨h1, h2, h3⟩ := hc s h
  rw [mem_bind]
  unfold Mem.bind
  revert h1 h2 h3
  rcases c s h with ⟨r, s', h'⟩
  intro h1 h2 h3
  dsimp only at h1 h2 h3
  subst h1 h2
  exact ⟨h', h3, rfl⟩

/-- After a step that only frees. -/
theorem tracks_quiet {c : Mem σ Unit} {k : Unit → Mem σ β} {v : Res δ} {flag : β → Bool}
    {view : β → δ} (hc : Quiet c) (hk : Tracks (k ()) v flag view) :
    Tracks (c >>= k) v flag view := by
  intro s h
  obtain ⟨h', hg, he⟩ := quiet_bind_eq hc k s h
  rw [he]
  obtain ⟨k1, k2, k3⟩ := hk s h'
  rw [show Ample h' = Ample h from propext (ample_congr hg)] at k3
  exact ⟨k1, k2.trans hg, k3⟩

/-- Sequencing after a call whose failure is a value. -/
theorem tracks_try {m : Mem σ α} {k : Option α → Mem σ β} {v : Res γ} {w : γ → Res δ}
    {view : α → γ} {flag' : β → Bool} {view' : β → δ}
    (hm : Tracks m v (fun _ => true) view) (hn : Fails (k none) flag')
    (hk : ∀ a, v = .ok (view a) → Tracks (k (some a)) (w (view a)) flag' view') :
    Tracks (m.attempt >>= k) (v >>= w) flag' view' := by
  intro s h
  obtain ⟨h1, h2, h3⟩ := hm s h
  rw [mem_bind]
  unfold Mem.bind Mem.attempt
  revert h1 h2 h3
  rcases m s h with ⟨r, s', h'⟩
  intro h1 h2 h3
  dsimp only at h1 h2
  subst h1
  cases r with
  | ok a =>
    change v = .ok (view a) at h3
    obtain ⟨k1, k2, k3⟩ := hk a h3 s' h'
    subst h3
    rw [show Ample h' = Ample h from propext (ample_congr h2)] at k3
    exact ⟨k1, k2.trans h2, k3⟩
  | err =>
    replace h3 : Ample h → v = .err := h3.2
    obtain ⟨k1, k2, k3⟩ := hn s' h'
    refine ⟨k1, k2.trans h2, ?_⟩
    have he : Ample h → (v >>= w) = .err := fun ha => by rw [h3 ha]; rfl
    dsimp only
    rcases k3 with ⟨k3, hb⟩ | ⟨b, k3, hb⟩
    · rw [k3]; exact ⟨hb, he⟩
    · rw [k3]
      show if flag' b then _ else _
      rw [hb]
      exact he
  | ub =>
    change v = .ub at h3
    subst h3
    exact ⟨rfl, h2, rfl⟩
  | hang =>
    change v = .hang at h3
    subst h3
    exact ⟨rfl, h2, rfl⟩

/-- Sequencing of steps of a function. -/
theorem tracks_step {m : Mem σ α} {k : α → Mem σ β} {v : Res γ} {w : γ → Res δ} {view : α → γ}
    {view' : β → δ} (hm : Tracks m v (fun _ => true) view)
    (hk : ∀ a, v = .ok (view a) → Tracks (k a) (w (view a)) (fun _ => true) view') :
    Tracks (m >>= k) (v >>= w) (fun _ => true) view' :=
  tracks_bind hm (fun a _ h => hk a h) (fun _ h => by cases h) (fun _ _ => rfl)

theorem tracks_noErr {m : Mem σ α} {v : Res γ} {flag : α → Bool} {view : α → γ}
    (hm : Tracks m v flag view) {a : α} (ha : flag a = false) (s : σ) (h : Heap) :
    (m s h).1 ≠ .err := by
  intro he
  have := (hm s h).2.2
  rw [he] at this
  have h1 := this.1 a
  rw [ha] at h1
  cases h1

/-- A computation that goes on after a failure. -/
theorem computes_tracks {m : Mem σ α} {k : α → Mem σ β} {v : Res γ} {flag : α → Bool}
    {view : α → γ} {w : Res δ} {view' : β → δ} (hm : Tracks m v flag view)
    (hn : ∃ a, flag a = false)
    (h1 : ∀ a, flag a = true → v = .ok (view a) → Computes (k a) (fun s => (w, s)) view')
    (h2 : ∀ a, flag a = false → v = .err → Computes (k a) (fun s => (w, s)) view')
    (h3 : v = .ub → w = .ub) (h4 : v = .hang → w = .hang) :
    Computes (m >>= k) (fun s => (w, s)) view' := by
  intro s h ha
  obtain ⟨k1, k2, k3⟩ := hm s h
  have hne := fun a hf => tracks_noErr hm (a := a) hf s h
  rw [mem_bind]
  unfold Mem.bind
  revert k1 k2 k3 hne
  rcases m s h with ⟨r, s', h'⟩
  intro k1 k2 k3 hne
  dsimp only at k1 k2 hne
  subst k1
  have ha' : Ample h' := (ample_congr k2).2 ha
  cases r with
  | ok a =>
    change if flag a then _ else _ at k3
    dsimp only
    cases hf : flag a with
    | true => rw [hf] at k3; exact h1 a hf k3 s' h' ha'
    | false => rw [hf] at k3; exact h2 a hf (k3 ha) s' h' ha'
  | err =>
    obtain ⟨a, hf⟩ := hn
    exact absurd rfl (hne a hf)
  | ub => exact ⟨ha', rfl, h3 k3⟩
  | hang => exact ⟨ha', rfl, h4 k3⟩

/-- As `computes_tracks`, for a call whose failure is a value. -/
theorem computes_try {m : Mem σ α} {k : Option α → Mem σ β} {v : Res γ}
    {view : α → γ} {w : Res δ} {view' : β → δ} (hm : Tracks m v (fun _ => true) view)
    (h1 : ∀ a, v = .ok (view a) → Computes (k (some a)) (fun s => (w, s)) view')
    (h2 : v = .err → Computes (k none) (fun s => (w, s)) view')
    (h3 : v = .ub → w = .ub) (h4 : v = .hang → w = .hang) :
    Computes (m.attempt >>= k) (fun s => (w, s)) view' := by
  intro s h ha
  obtain ⟨k1, k2, k3⟩ := hm s h
  rw [mem_bind]
  unfold Mem.bind Mem.attempt
  revert k1 k2 k3
  rcases m s h with ⟨r, s', h'⟩
  intro k1 k2 k3
  dsimp only at k1 k2
  subst k1
  have ha' : Ample h' := (ample_congr k2).2 ha
  cases r with
  | ok a => exact h1 a k3 s' h' ha'
  | err => exact h2 (k3.2 ha) s' h' ha'
  | ub => exact ⟨ha', rfl, h3 k3⟩
  | hang => exact ⟨ha', rfl, h4 k3⟩

theorem computes_after {c : Mem σ Unit} {k : Unit → Mem σ β} {w : Res δ} {view' : β → δ}
    (hc : Quiet c) (hk : Computes (k ()) (fun s => (w, s)) view') :
    Computes (c >>= k) (fun s => (w, s)) view' := by
  intro s h ha
  obtain ⟨h', hg, he⟩ := quiet_bind_eq hc k s h
  rw [he]
  exact hk s h' ((ample_congr hg).2 ha)

theorem tracks_onError {m : Mem σ α} {c : Mem σ Unit} {v : Res γ} {flag : α → Bool} {view : α → γ}
    (hm : Tracks m v flag view) (hc : Quiet c) : Tracks (m.onError c) v flag view := by
  intro s h
  obtain ⟨h1, h2, h3⟩ := hm s h
  unfold Mem.onError
  revert h1 h2 h3
  rcases m s h with ⟨r, s', h'⟩
  intro h1 h2 h3
  dsimp only at h1 h2
  subst h1
  cases r with
  | ok a => exact ⟨rfl, h2, h3⟩
  | err =>
    obtain ⟨h'', hg, he⟩ := quiet_bind_eq hc (fun _ => (Mem.fail : Mem σ α)) s' h'
    dsimp only
    rw [← mem_bind, he]
    exact ⟨rfl, hg.trans h2, h3⟩
  | ub => exact ⟨rfl, h2, h3⟩
  | hang => exact ⟨rfl, h2, h3⟩

theorem tracks_congr {m : Mem σ α} {v w : Res γ} {flag : α → Bool} {view : α → γ}
    (h : Tracks m v flag view) (hv : v = w) : Tracks m w flag view := hv ▸ h

/-- What a success ensures. -/
def Ensures (m : Mem σ α) (P : α → Prop) : Prop := ∀ s h a, (m s h).1 = .ok a → P a

theorem ensures_bind {m : Mem σ α} {k : α → Mem σ β} {Q : α → Prop} {P : β → Prop}
    (hm : Ensures m Q) (hk : ∀ a, Q a → Ensures (k a) P) : Ensures (m >>= k) P := by
  intro s h b
  have h1 := hm s h
  rw [mem_bind]
  unfold Mem.bind
  revert h1
  rcases m s h with ⟨r, s', h'⟩
  intro h1
  cases r with
  | ok a => exact hk a (h1 a rfl) s' h' b
  | err => intro h; cases h
  | ub => intro h; cases h
  | hang => intro h; cases h

theorem ensures_pure {a : α} {P : α → Prop} (h : P a) : Ensures (pure a : Mem σ α) P := by
  intro _ _ b hb
  have : (Res.ok a : Res α) = .ok b := hb
  cases this
  exact h

theorem ensures_of {r : Res α} : Ensures (Mem.of r : Mem σ α) (fun a => r = .ok a) :=
  fun _ _ _ h => h

theorem ensures_true (m : Mem σ α) : Ensures m (fun _ => True) := fun _ _ _ _ => trivial

theorem ensures_onError {m : Mem σ α} {c : Mem σ Unit} {P : α → Prop} (hm : Ensures m P) :
    Ensures (m.onError c) P := by
  intro s h a
  have h1 := hm s h
  unfold Mem.onError
  revert h1
  rcases m s h with ⟨r, s', h'⟩
  intro h1
  cases r with
  | ok b => exact h1 a
  | err =>
    intro he
    dsimp only [Mem.bind] at he
    revert he
    rcases c s' h' with ⟨r, s'', h''⟩
    cases r <;> intro he <;> cases he
  | ub => intro h; cases h
  | hang => intro h; cases h

/-- After a call whose failure is a value. -/
theorem ensures_try {m : Mem σ α} {k : Option α → Mem σ β} {Q : α → Prop} {P : β → Prop}
    (hm : Ensures m Q) (hn : Ensures (k none) P) (hk : ∀ a, Q a → Ensures (k (some a)) P) :
    Ensures (m.attempt >>= k) P := by
  refine ensures_bind (Q := fun o => ∀ a, o = some a → Q a) ?_ fun o ho => ?_
  · intro s h o hh a ha
    subst ha
    have h1 := hm s h
    unfold Mem.attempt at hh
    revert h1 hh
    rcases m s h with ⟨r, s', h'⟩
    intro hh h1
    cases r with
    | ok b => cases hh; exact h1 _ rfl
    | err => cases hh
    | ub => cases hh
    | hang => cases hh
  · cases o with
    | none => exact hn
    | some a => exact hk a (ho a rfl)

theorem tracks_ensures {m : Mem σ α} {v : Res γ} {flag : α → Bool} {view : α → γ}
    (hm : Tracks m v flag view) : Ensures m (fun a => flag a = true → v = .ok (view a)) := by
  intro s h a ha hf
  have := (hm s h).2.2
  rw [ha] at this
  change if flag a then _ else _ at this
  rw [hf] at this
  exact this

end Lemmas
end Olecf
