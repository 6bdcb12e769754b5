import Verif.Spec.Objects
import Verif.Props.FileExamples

/-
  C115: file objects do not influence each other.
-/

namespace Olecf.Props
open Spec

/-- Handle `k` of one world is as handle `k'` of the other. -/
def HandleAs (W w : World) (k k' : HandleId) : Prop := W.isOpen k = w.isOpen k' ∧ W.dev k = w.dev k'

/-- Nothing happened to the handles other than `k`, and no handle was made. -/
def OnlyAt (k : HandleId) (W W' : World) : Prop :=
  W'.made = W.made ∧ ∀ x, x ≠ k → HandleAs W' W x x

theorem OnlyAt.refl (k : HandleId) (W : World) : OnlyAt k W W := ⟨rfl, fun _ _ => ⟨rfl, rfl⟩⟩

theorem OnlyAt.trans {k : HandleId} {W1 W2 W3 : World} (h1 : OnlyAt k W1 W2) (h2 : OnlyAt k W2 W3) : OnlyAt k W1 W3 :=
  ⟨h2.1.trans h1.1, fun x hx => ⟨(h2.2 x hx).1.trans (h1.2 x hx).1, (h2.2 x hx).2.trans (h1.2 x hx).2⟩⟩

theorem openH_only (W : World) (flt : Faults) (k : HandleId) : OnlyAt k W (W.openH flt k).2 := by
  unfold World.openH
  split
  · exact .refl _ _
  · exact ⟨rfl, fun x hx => ⟨if_neg hx, rfl⟩⟩

theorem closeH_only (W : World) (flt : Faults) (k : HandleId) : OnlyAt k W (W.closeH flt k).2 := by
  unfold World.closeH
  split
  · exact ⟨rfl, fun x hx => ⟨rfl, rfl⟩⟩
  · exact ⟨rfl, fun x hx => ⟨if_neg hx, rfl⟩⟩

theorem freeH_only (W : World) (k : HandleId) : OnlyAt k W (W.freeH k) := ⟨rfl, fun _ hx => ⟨if_neg hx, rfl⟩⟩

theorem openH_as {W w : World} {k k' : HandleId} (h : HandleAs W w k k') (flt : Faults) :
    (W.openH flt k).1 = (w.openH flt k').1 ∧ HandleAs (W.openH flt k).2 (w.openH flt k').2 k k' := by
  unfold World.openH
  split
  · exact ⟨rfl, h⟩
  · exact ⟨rfl, by simp, h.2⟩

theorem closeH_as {W w : World} {k k' : HandleId} (h : HandleAs W w k k') (flt : Faults) :
    (W.closeH flt k).1 = (w.closeH flt k').1 ∧ HandleAs (W.closeH flt k).2 (w.closeH flt k').2 k k' := by
  unfold World.closeH
  rw [h.1]
  split
  · exact ⟨rfl, h⟩
  · exact ⟨rfl, by simp, h.2⟩

theorem freeH_as {W w : World} {k k' : HandleId} (h : HandleAs W w k k') : HandleAs (W.freeH k) (w.freeH k') k k' :=
  ⟨by simp [World.freeH], h.2⟩

/-! ### The signature check -/

theorem checkSignature_as {W w : World} {k k' : HandleId} (h : HandleAs W w k k') (flt : Faults) :
    (checkSignature k flt W).1 = (checkSignature k' flt w).1 ∧
      HandleAs (checkSignature k flt W).2 (checkSignature k' flt w).2 k k' ∧
      OnlyAt k W (checkSignature k flt W).2 := by
  unfold checkSignature
  by_cases h1 : flt.isOpen
  · rw [if_pos h1, if_pos h1]
    exact ⟨rfl, h, .refl _ _⟩
  rw [if_neg h1, if_neg h1, h.1]
  have ho := openH_as h flt
  have hoo := openH_only W flt k
  cases hw : w.isOpen k' with
  | true =>
    simp only [Bool.not_true, if_true, if_false, Bool.false_eq_true]
    rw [h.2]
    split
    · exact ⟨rfl, h, .refl _ _⟩
    · split
      · exact ⟨rfl, h, .refl _ _⟩
      · split <;> exact ⟨rfl, h, .refl _ _⟩
  | false =>
    simp only [Bool.not_false, if_true, if_false, Bool.false_eq_true]
    generalize W.openH flt k = p at ho hoo
    generalize w.openH flt k' = p' at ho
    obtain ⟨b, W1⟩ := p
    obtain ⟨b', w1⟩ := p'
    obtain ⟨rfl, ho⟩ := ho
    dsimp only at ho hoo ⊢
    have hc := closeH_as ho flt
    have hco := hoo.trans (closeH_only W1 flt k)
    cases b with
    | false =>
      simp only [Bool.not_false, if_true]
      exact ⟨trivial, hc.2, hco⟩
    | true =>
      simp only [Bool.not_true, if_false, Bool.false_eq_true]
      rw [ho.2]
      cases (w1.dev k').get 0 8 with
      | none => exact ⟨rfl, hc.2, hco⟩
      | some sig =>
        dsimp only
        generalize hq : W1.closeH flt k = q at hc hco
        generalize hq' : w1.closeH flt k' = q' at hc
        obtain ⟨b, W2⟩ := q
        obtain ⟨b', w2⟩ := q'
        obtain ⟨rfl, hc⟩ := hc
        dsimp only at hc hco ⊢
        cases b with
        | false =>
          simp only [Bool.not_false, if_true]
          exact ⟨trivial, (closeH_as hc flt).2, hco.trans (closeH_only W2 flt k)⟩
        | true =>
          simp only [Bool.not_true, if_false, Bool.false_eq_true]
          split
          · exact ⟨rfl, hc, hco⟩
          · split <;> exact ⟨rfl, hc, hco⟩

/-! ### Opening and closing -/

/-- A file object apart from its handle. -/
def noHandle (f : OleFile) : OleFile := { f with handle := none }

/-- The handles after a step with handle `k` (`k'` in the other world): none, or these two. -/
def HeldAs (f f' : OleFile) (k k' : HandleId) : Prop :=
  (f.handle = none ∧ f'.handle = none) ∨ (f.handle = some k ∧ f'.handle = some k')

theorem openHandle_as (cmp : Bytes → Bytes → Option Bool) {W w : World} {k k' : HandleId} (h : HandleAs W w k k')
    (flags : Nat) (flt : Faults) (f : OleFile) (hf : f.handle = none) :
    (openHandle cmp k flags flt ⟨f, W⟩).1 = (openHandle cmp k' flags flt ⟨f, w⟩).1 ∧
      HandleAs (openHandle cmp k flags flt ⟨f, W⟩).2.world (openHandle cmp k' flags flt ⟨f, w⟩).2.world k k' ∧
      OnlyAt k W (openHandle cmp k flags flt ⟨f, W⟩).2.world ∧
      noHandle (openHandle cmp k flags flt ⟨f, W⟩).2.file = noHandle (openHandle cmp k' flags flt ⟨f, w⟩).2.file ∧
      HeldAs (openHandle cmp k flags flt ⟨f, W⟩).2.file (openHandle cmp k' flags flt ⟨f, w⟩).2.file k k' := by
  obtain ⟨io, ab, hd, o, c, m, st, sst, t⟩ := f
  dsimp only at hf
  subst hf
  unfold openHandle
  dsimp only
  have hn : ¬ (none : Option HandleId).isSome = true := by decide
  rw [if_neg hn, if_neg hn]
  by_cases h1 : (!flagRead flags && !flagWrite flags) = true
  · rw [if_pos h1, if_pos h1]
    exact ⟨rfl, h, .refl _ _, rfl, Or.inl ⟨rfl, rfl⟩⟩
  rw [if_neg h1, if_neg h1]
  by_cases h2 : flagWrite flags = true
  · rw [if_pos h2, if_pos h2]
    exact ⟨rfl, h, .refl _ _, rfl, Or.inl ⟨rfl, rfl⟩⟩
  rw [if_neg h2, if_neg h2]
  by_cases h3 : flt.isOpen = true
  · rw [if_pos h3, if_pos h3]
    exact ⟨rfl, h, .refl _ _, rfl, Or.inl ⟨rfl, rfl⟩⟩
  rw [if_neg h3, if_neg h3, h.1]
  have ho := openH_as h flt
  have hoo := openH_only W flt k
  cases hw : w.isOpen k' with
  | true =>
    simp only [Bool.not_true, if_true, if_false, Bool.false_eq_true, Bool.false_and]
    rw [h.2]
    cases (openRead cmp (w.dev k') ⟨io, ab, none, o, c, m, st, sst, t⟩).1.res with
    | ok _ => exact ⟨rfl, h, .refl _ _, rfl, Or.inr ⟨rfl, rfl⟩⟩
    | err => exact ⟨rfl, h, .refl _ _, rfl, Or.inl ⟨rfl, rfl⟩⟩
    | ub => exact ⟨rfl, h, .refl _ _, rfl, Or.inl ⟨rfl, rfl⟩⟩
    | hang => exact ⟨rfl, h, .refl _ _, rfl, Or.inl ⟨rfl, rfl⟩⟩
  | false =>
    simp only [Bool.not_false, if_false, Bool.false_eq_true, Bool.true_and]
    generalize W.openH flt k = p at ho hoo
    generalize w.openH flt k' = p' at ho
    obtain ⟨b, W1⟩ := p
    obtain ⟨b', w1⟩ := p'
    obtain ⟨rfl, ho⟩ := ho
    dsimp only at ho hoo ⊢
    have hc := (closeH_as ho flt).2
    have hco := hoo.trans (closeH_only W1 flt k)
    cases b with
    | false =>
      simp only [Bool.not_false, if_true]
      exact ⟨trivial, ho, hoo, trivial, Or.inl ⟨rfl, rfl⟩⟩
    | true =>
      simp only [Bool.not_true, if_false, Bool.false_eq_true]
      rw [ho.2]
      generalize openRead cmp (w1.dev k') ⟨io, ab, none, true, c, m, st, sst, t⟩ = q
      obtain ⟨⟨reads, res⟩, f1⟩ := q
      cases res with
      | ok _ => exact ⟨rfl, ho, hoo, rfl, Or.inr ⟨rfl, rfl⟩⟩
      | err =>
        dsimp only
        split
        · exact ⟨rfl, hc, hco, rfl, Or.inl ⟨rfl, rfl⟩⟩
        · exact ⟨rfl, ho, hoo, rfl, Or.inl ⟨rfl, rfl⟩⟩
      | ub =>
        dsimp only
        split
        · exact ⟨rfl, hc, hco, rfl, Or.inl ⟨rfl, rfl⟩⟩
        · exact ⟨rfl, ho, hoo, rfl, Or.inl ⟨rfl, rfl⟩⟩
      | hang =>
        dsimp only
        split
        · exact ⟨rfl, hc, hco, rfl, Or.inl ⟨rfl, rfl⟩⟩
        · exact ⟨rfl, ho, hoo, rfl, Or.inl ⟨rfl, rfl⟩⟩

/-- Closing, for objects that are the same but for their handles `k` and `k'`. -/
theorem closeFile_as {W w : World} {k k' : HandleId} (h : HandleAs W w k k') (flt : Faults) (f f' : OleFile)
    (hs : noHandle f = noHandle f') (hk : f.handle = some k) (hk' : f'.handle = some k') :
    (closeFile flt ⟨f, W⟩).1 = (closeFile flt ⟨f', w⟩).1 ∧
      HandleAs (closeFile flt ⟨f, W⟩).2.world (closeFile flt ⟨f', w⟩).2.world k k' ∧
      OnlyAt k W (closeFile flt ⟨f, W⟩).2.world ∧
      (closeFile flt ⟨f, W⟩).2.file = (closeFile flt ⟨f', w⟩).2.file ∧ (closeFile flt ⟨f, W⟩).2.file.handle = none := by
  unfold closeFile
  dsimp only
  rw [hk, hk']
  have e1 : f.openedInLibrary = f'.openedInLibrary := by
    have := congrArg (fun g : OleFile => g.openedInLibrary) hs
    exact this
  have e2 : f.createdInLibrary = f'.createdInLibrary := by
    have := congrArg (fun g : OleFile => g.createdInLibrary) hs
    exact this
  dsimp only
  rw [e1, e2]
  have hc := closeH_as h flt
  have hco := closeH_only W flt k
  cases f'.openedInLibrary with
  | false =>
    cases f'.createdInLibrary with
    | false => exact ⟨rfl, h, .refl _ _, rfl, rfl⟩
    | true => exact ⟨rfl, freeH_as h, freeH_only _ _, rfl, rfl⟩
  | true =>
    cases f'.createdInLibrary with
    | false =>
      simp only [if_true, if_false, Bool.false_eq_true]
      rw [hc.1]
      exact ⟨rfl, hc.2, hco, trivial, trivial⟩
    | true =>
      simp only [if_true]
      rw [hc.1]
      exact ⟨rfl, freeH_as hc.2, hco.trans (freeH_only _ _), trivial, trivial⟩

/-! ### The same object in two worlds -/

theorem HandleAs.symm {W w : World} {k k' : HandleId} (h : HandleAs W w k k') : HandleAs w W k' k := ⟨h.1.symm, h.2.symm⟩

theorem HandleAs.trans {W w v : World} {k k' k'' : HandleId} (h : HandleAs W w k k') (g : HandleAs w v k' k'') :
    HandleAs W v k k'' := ⟨h.1.trans g.1, h.2.trans g.2⟩

/-- Two handles that stand for each other: the same handle of the caller, or two that the library made. -/
def Pair (mine : Nat → Prop) (W w : World) (k k' : HandleId) : Prop :=
  (∃ n, k = .user n ∧ k' = .user n ∧ mine n) ∨ (∃ a b, k = .lib a ∧ k' = .lib b ∧ a < W.made ∧ b < w.made)

/-- The object is the same in both worlds, but for the number of a handle that the library made; the handles `mine` of
  the caller are as well. -/
structure Sim (mine : Nat → Prop) (st st' : FileState) : Prop where
  same : noHandle st.file = noHandle st'.file
  held : (st.file.handle = none ∧ st'.file.handle = none) ∨
    ∃ k k', st.file.handle = some k ∧ st'.file.handle = some k' ∧ Pair mine st.world st'.world k k' ∧
      HandleAs st.world st'.world k k'
  users : ∀ n, mine n → HandleAs st.world st'.world (.user n) (.user n)

/-- Nothing happened to the handles but perhaps to a new one. -/
def Fresh (W W' : World) : Prop := W.made ≤ W'.made ∧ ∀ x, x ≠ .lib W.made → HandleAs W' W x x

theorem Fresh.refl (W : World) : Fresh W W := ⟨Nat.le_refl _, fun _ _ => ⟨rfl, rfl⟩⟩

theorem createH_fresh (W : World) (dev : Dev) : Fresh W (W.createH dev).2 :=
  ⟨Nat.le_succ _, fun _ hx => ⟨if_neg hx, if_neg hx⟩⟩

theorem createH_as (W w : World) (dev : Dev) :
    HandleAs (W.createH dev).2 (w.createH dev).2 (.lib W.made) (.lib w.made) :=
  ⟨by simp [World.createH], by simp [World.createH]⟩

theorem Fresh.only {W W1 W2 : World} (h : Fresh W W1) (g : OnlyAt (.lib W.made) W1 W2) : Fresh W W2 :=
  ⟨g.1 ▸ h.1, fun x hx => (g.2 x hx).trans (h.2 x hx)⟩

theorem Sim.fresh {mine : Nat → Prop} {f f' : OleFile} {W w W' w' : World} (h : Sim mine ⟨f, W⟩ ⟨f', w⟩) (H : Fresh W W')
    (H' : Fresh w w') : Sim mine ⟨f, W'⟩ ⟨f', w'⟩ := by
  refine ⟨h.same, ?_, fun n hn => ?_⟩
  · rcases h.held with h0 | ⟨k, k', e, e', hp, ha⟩
    · exact Or.inl h0
    · refine Or.inr ⟨k, k', e, e', ?_, ?_⟩
      · rcases hp with hp | ⟨a, b, ea, eb, la, lb⟩
        · exact Or.inl hp
        · exact Or.inr ⟨a, b, ea, eb, Nat.lt_of_lt_of_le la H.1, Nat.lt_of_lt_of_le lb H'.1⟩
      · have nk : k ≠ .lib W.made ∧ k' ≠ .lib w.made := by
          rcases hp with ⟨n, rfl, rfl, _⟩ | ⟨a, b, rfl, rfl, la, lb⟩
          · exact ⟨by simp, by simp⟩
          · dsimp only at la lb
            refine ⟨fun hk => ?_, fun hk => ?_⟩
            · injection hk with hk; omega
            · injection hk with hk; omega
        exact ((H.2 k nk.1).trans ha).trans (H'.2 k' nk.2).symm
  · exact ((H.2 (.user n) (by simp)).trans (h.users n hn)).trans (H'.2 (.user n) (by simp)).symm

theorem Pair.made {mine : Nat → Prop} {W w W' w' : World} {k k' : HandleId} (h : Pair mine W w k k')
    (e : W'.made = W.made) (e' : w'.made = w.made) : Pair mine W' w' k k' := by
  rcases h with h | ⟨a, b, ea, eb, la, lb⟩
  · exact Or.inl h
  · exact Or.inr ⟨a, b, ea, eb, e ▸ la, e' ▸ lb⟩

theorem users_after {mine : Nat → Prop} {W w W' w' : World} {k k' : HandleId} (hp : Pair mine W w k k')
    (hu : ∀ n, mine n → HandleAs W w (.user n) (.user n)) (h1 : OnlyAt k W W') (h2 : OnlyAt k' w w')
    (h3 : HandleAs W' w' k k') (n : Nat) (hn : mine n) : HandleAs W' w' (.user n) (.user n) := by
  have go : HandleId.user n ≠ k → HandleId.user n ≠ k' → HandleAs W' w' (.user n) (.user n) := fun a b =>
    ((h1.2 _ a).trans (hu n hn)).trans (h2.2 _ b).symm
  rcases hp with ⟨m, rfl, rfl, _⟩ | ⟨a, b, rfl, rfl, _, _⟩
  · by_cases e : n = m
    · exact e ▸ h3
    · exact go (by simpa using e) (by simpa using e)
  · exact go (by simp) (by simp)

/-- Both objects take the step in the same way, and the first one leaves the handles of others alone. -/
structure StepOk {α : Type} (mine uses : Nat → Prop) (st : FileState) (r r' : Res α × FileState) : Prop where
  reply : r.1 = r'.1
  sim : Sim mine r.2 r'.2
  made : st.world.made ≤ r.2.world.made
  others : ∀ x, st.file.handle ≠ some x → (∀ n, uses n → x ≠ .user n) → x ≠ .lib st.world.made →
    HandleAs r.2.world st.world x x
  lib : ∀ a, r.2.file.handle = some (.lib a) → st.file.handle = some (.lib a) ∨ a = st.world.made

theorem noHandle_eq {f f' : OleFile} (h : noHandle f = noHandle f') (e : f.handle = none) (e' : f'.handle = none) :
    f = f' := by
  cases f
  cases f'
  simp only [noHandle, OleFile.mk.injEq] at h e e' ⊢
  subst e e'
  simpa using h

variable {mine : Nat → Prop}

/-- A step that leaves the handles alone. -/
theorem StepOk.stay {α : Type} {uses : Nat → Prop} {st st' : FileState} (h : Sim mine st st') (r : Res α) :
    StepOk mine uses st (r, st) (r, st') :=
  ⟨rfl, h, Nat.le_refl _, fun _ _ _ _ => ⟨rfl, rfl⟩, fun _ e => Or.inl e⟩

theorem openHandle_step (cmp : Bytes → Bytes → Option Bool) {st st' : FileState} (h : Sim mine st st') (n : Nat)
    (hn : mine n) (flags : Nat) (flt : Faults) :
    StepOk mine (· = n) st (openHandle cmp (.user n) flags flt st) (openHandle cmp (.user n) flags flt st') := by
  obtain ⟨f, W⟩ := st
  obtain ⟨f', w⟩ := st'
  rcases h.held with ⟨e, e'⟩ | ⟨k, k', e, e', _⟩
  · dsimp only at e e'
    obtain rfl := noHandle_eq h.same e e'
    have ha := h.users n hn
    obtain ⟨h1, h2, h3, h4, h5⟩ := openHandle_as cmp ha flags flt f e
    obtain ⟨-, -, h3', -, -⟩ := openHandle_as cmp ha.symm flags flt f e
    have hp : Pair mine W w (.user n) (.user n) := Or.inl ⟨n, rfl, rfl, hn⟩
    refine ⟨h1, ⟨h4, ?_, users_after hp h.users h3 h3' h2⟩, Nat.le_of_eq h3.1.symm, fun x _ hx _ => h3.2 x (hx n rfl), ?_⟩
    · rcases h5 with h5 | h5
      · exact Or.inl h5
      · exact Or.inr ⟨_, _, h5.1, h5.2, hp.made h3.1 h3'.1, h2⟩
    · intro a ea
      rcases h5 with h5 | h5
      · rw [h5.1] at ea; cases ea
      · rw [h5.1] at ea; cases ea
  · have r : ∀ {g : OleFile} {V : World} {k : HandleId}, g.handle = some k →
        openHandle cmp (.user n) flags flt ⟨g, V⟩ = (.err, ⟨g, V⟩) := fun e => by
      unfold openHandle
      rw [e]
      rfl
    rw [r e, r e']
    exact .stay h _

theorem openName_step (cmp : Bytes → Bytes → Option Bool) {st st' : FileState} (h : Sim mine st st') (dev : Dev)
    (flags : Nat) (flt : Faults) (uses : Nat → Prop) :
    StepOk mine uses st (openName cmp dev flags flt st) (openName cmp dev flags flt st') := by
  obtain ⟨f, W⟩ := st
  obtain ⟨f', w⟩ := st'
  have fr : ∀ {α : Type} (r : Res α) {W' w' : World}, Fresh W W' → Fresh w w' →
      StepOk mine uses ⟨f, W⟩ (r, ⟨f, W'⟩) (r, ⟨f', w'⟩) := fun r _ _ H H' =>
    ⟨rfl, h.fresh H H', H.1, fun x _ _ hx => H.2 x hx, fun _ e => Or.inl e⟩
  unfold openName
  by_cases h1 : flt.create = true
  · rw [if_pos h1, if_pos h1]
    exact .stay h _
  rw [if_neg h1, if_neg h1]
  have c1 := createH_fresh W dev
  have c2 := createH_fresh w dev
  have ca := createH_as W w dev
  have m1 : (W.createH dev).2.made = W.made + 1 := rfl
  have m2 : (w.createH dev).2.made = w.made + 1 := rfl
  have i1 : (W.createH dev).1 = .lib W.made := rfl
  have i2 : (w.createH dev).1 = .lib w.made := rfl
  dsimp only
  rw [i1, i2]
  generalize (W.createH dev).2 = W1 at *
  generalize (w.createH dev).2 = w1 at *
  by_cases h2 : flt.setName = true
  · rw [if_pos h2, if_pos h2]
    exact fr _ (c1.only (freeH_only _ _)) (c2.only (freeH_only _ _))
  rw [if_neg h2, if_neg h2]
  rcases h.held with ⟨e, e'⟩ | ⟨k, k', e, e', _⟩
  · dsimp only at e e'
    obtain rfl := noHandle_eq h.same e e'
    obtain ⟨g1, g2, g3, g4, g5⟩ := openHandle_as cmp ca flags flt f e
    obtain ⟨-, -, g3', -, -⟩ := openHandle_as cmp ca.symm flags flt f e
    generalize openHandle cmp (.lib W.made) flags flt ⟨f, W1⟩ = q at *
    generalize openHandle cmp (.lib w.made) flags flt ⟨f, w1⟩ = q' at *
    obtain ⟨r, ⟨F, W2⟩⟩ := q
    obtain ⟨r', ⟨F', w2⟩⟩ := q'
    dsimp only at g1 g2 g3 g4 g5 g3' ⊢
    subst g1
    have bad : ∀ (s : Res Unit), StepOk mine uses ⟨f, W⟩ (s, ⟨F, W2.freeH (.lib W.made)⟩) (s, ⟨F', w2.freeH (.lib w.made)⟩) := by
      intro s
      have d1 := (c1.only g3).only (freeH_only W2 (.lib W.made))
      have d2 := (c2.only g3').only (freeH_only w2 (.lib w.made))
      refine ⟨rfl, ⟨g4, ?_, fun n hn => (h.fresh d1 d2).users n hn⟩, d1.1, fun x _ _ hx => d1.2 x hx, ?_⟩
      · rcases g5 with g5 | g5
        · exact Or.inl g5
        · refine Or.inr ⟨_, _, g5.1, g5.2, Or.inr ⟨_, _, rfl, rfl, ?_, ?_⟩, freeH_as g2⟩
          · show W.made < W2.made; rw [g3.1, m1]; omega
          · show w.made < w2.made; rw [g3'.1, m2]; omega
      · intro a ea
        rcases g5 with g5 | g5
        · rw [g5.1] at ea; cases ea
        · rw [g5.1] at ea; injection ea with ea; injection ea with ea; exact Or.inr ea.symm
    cases r with
    | ok _ =>
      dsimp only
      have d1 := c1.only g3
      have d2 := c2.only g3'
      have g4' : noHandle { F with createdInLibrary := true } = noHandle { F' with createdInLibrary := true } :=
        congrArg (fun g : OleFile => { g with createdInLibrary := true }) g4
      refine ⟨rfl, ⟨g4', ?_, fun n hn => (h.fresh d1 d2).users n hn⟩, d1.1, fun x _ _ hx => d1.2 x hx, ?_⟩
      · rcases g5 with g5 | g5
        · exact Or.inl g5
        · refine Or.inr ⟨_, _, g5.1, g5.2, Or.inr ⟨_, _, rfl, rfl, ?_, ?_⟩, g2⟩
          · show W.made < W2.made; rw [g3.1, m1]; omega
          · show w.made < w2.made; rw [g3'.1, m2]; omega
      · intro a ea
        dsimp only at ea
        rcases g5 with g5 | g5
        · rw [g5.1] at ea; cases ea
        · rw [g5.1] at ea; injection ea with ea; injection ea with ea; exact Or.inr ea.symm
    | err => exact bad _
    | ub => exact bad _
    | hang => exact bad _
  · have r : ∀ {g : OleFile} {V : World} {k j : HandleId}, g.handle = some k →
        openHandle cmp j flags flt ⟨g, V⟩ = (.err, ⟨g, V⟩) := fun e => by
      unfold openHandle
      rw [e]
      rfl
    rw [r e, r e']
    exact fr _ (c1.only (freeH_only _ _)) (c2.only (freeH_only _ _))

theorem closeFile_step {st st' : FileState} (h : Sim mine st st') (flt : Faults) (uses : Nat → Prop) :
    StepOk mine uses st (closeFile flt st) (closeFile flt st') := by
  obtain ⟨f, W⟩ := st
  obtain ⟨f', w⟩ := st'
  rcases h.held with ⟨e, e'⟩ | ⟨k, k', e, e', hp, ha⟩
  · dsimp only at e e'
    unfold closeFile
    rw [e, e']
    exact .stay h _
  · obtain ⟨h1, h2, h3, h4, h5⟩ := closeFile_as ha flt f f' h.same e e'
    obtain ⟨-, -, h3', -, -⟩ := closeFile_as ha.symm flt f' f h.same.symm e' e
    refine ⟨h1, ⟨congrArg noHandle h4, Or.inl ⟨h5, h4 ▸ h5⟩, users_after hp h.users h3 h3' h2⟩, Nat.le_of_eq h3.1.symm,
      fun x hx _ _ => h3.2 x fun hk => hx (hk ▸ e), fun a ea => ?_⟩
    rw [h5] at ea
    cases ea

theorem renew_step {st st' : FileState} (h : Sim mine st st') (flt : Faults) (uses : Nat → Prop) :
    StepOk mine uses st ((freeFile flt st).1, (⟨OleFile.new, (freeFile flt st).2⟩ : FileState))
      ((freeFile flt st').1, ⟨OleFile.new, (freeFile flt st').2⟩) := by
  have hc := closeFile_step h flt uses
  unfold freeFile
  rcases h.held with ⟨e, e'⟩ | ⟨k, k', e, e', hp, ha⟩
  · rw [e, e']
    exact ⟨rfl, ⟨rfl, Or.inl ⟨rfl, rfl⟩, h.users⟩, Nat.le_refl _, fun _ _ _ _ => ⟨rfl, rfl⟩, fun a ea => nomatch ea⟩
  · rw [e, e']
    exact ⟨hc.reply, ⟨rfl, Or.inl ⟨rfl, rfl⟩, hc.sim.users⟩, hc.made, hc.others, fun a ea => nomatch ea⟩

theorem check_step {st st' : FileState} (h : Sim mine st st') (n : Nat) (hn : mine n) (flt : Faults) :
    StepOk mine (· = n) st ((checkSignature (.user n) flt st.world).1, ⟨st.file, (checkSignature (.user n) flt st.world).2⟩)
      ((checkSignature (.user n) flt st'.world).1, ⟨st'.file, (checkSignature (.user n) flt st'.world).2⟩) := by
  have ha := h.users n hn
  obtain ⟨h1, h2, h3⟩ := checkSignature_as ha flt
  obtain ⟨-, -, h3'⟩ := checkSignature_as ha.symm flt
  have hp : Pair mine st.world st'.world (.user n) (.user n) := Or.inl ⟨n, rfl, rfl, hn⟩
  refine ⟨h1, ⟨h.same, ?_, users_after hp h.users h3 h3' h2⟩, Nat.le_of_eq h3.1.symm, fun x _ hx _ => h3.2 x (hx n rfl),
    fun a ea => Or.inl ea⟩
  rcases h.held with h0 | ⟨k, k', e, e', hq, hk⟩
  · exact Or.inl h0
  · refine Or.inr ⟨k, k', e, e', hq.made h3.1 h3'.1, ?_⟩
    rcases hq with ⟨m, rfl, rfl, hm⟩ | ⟨a, b, rfl, rfl, _, _⟩
    · exact users_after hp h.users h3 h3' h2 m hm
    · exact ((h3.2 _ (by simp)).trans hk).trans (h3'.2 _ (by simp)).symm

theorem checkName_step {st st' : FileState} (h : Sim mine st st') (dev : Dev) (flt : Faults) (uses : Nat → Prop) :
    StepOk mine uses st ((checkSignatureName dev flt st.world).1, ⟨st.file, (checkSignatureName dev flt st.world).2⟩)
      ((checkSignatureName dev flt st'.world).1, ⟨st'.file, (checkSignatureName dev flt st'.world).2⟩) := by
  obtain ⟨f, W⟩ := st
  obtain ⟨f', w⟩ := st'
  have fr : ∀ {α : Type} (r : Res α) {W' w' : World}, Fresh W W' → Fresh w w' →
      StepOk mine uses ⟨f, W⟩ (r, ⟨f, W'⟩) (r, ⟨f', w'⟩) := fun r _ _ H H' =>
    ⟨rfl, h.fresh H H', H.1, fun x _ _ hx => H.2 x hx, fun _ e => Or.inl e⟩
  unfold checkSignatureName
  by_cases h1 : flt.create = true
  · rw [if_pos h1, if_pos h1]
    exact .stay h _
  rw [if_neg h1, if_neg h1]
  have c1 := createH_fresh W dev
  have c2 := createH_fresh w dev
  have ca := createH_as W w dev
  have i1 : (W.createH dev).1 = .lib W.made := rfl
  have i2 : (w.createH dev).1 = .lib w.made := rfl
  dsimp only
  rw [i1, i2]
  generalize (W.createH dev).2 = W1 at *
  generalize (w.createH dev).2 = w1 at *
  by_cases h2 : flt.setName = true
  · rw [if_pos h2, if_pos h2]
    exact fr _ (c1.only (freeH_only _ _)) (c2.only (freeH_only _ _))
  rw [if_neg h2, if_neg h2]
  obtain ⟨g1, -, g3⟩ := checkSignature_as ca flt
  obtain ⟨-, -, g3'⟩ := checkSignature_as ca.symm flt
  generalize checkSignature (.lib W.made) flt W1 = q at *
  generalize checkSignature (.lib w.made) flt w1 = q' at *
  obtain ⟨r, W2⟩ := q
  obtain ⟨r', w2⟩ := q'
  dsimp only at g1 g3 g3' ⊢
  subst g1
  have d1 := (c1.only g3).only (freeH_only W2 (.lib W.made))
  have d2 := (c2.only g3').only (freeH_only w2 (.lib w.made))
  cases r with
  | ok b => exact fr _ d1 d2
  | err => exact fr _ d1 d2
  | ub => exact fr _ d1 d2
  | hang => exact fr _ d1 d2

theorem setCodepage_step {st st' : FileState} (h : Sim mine st st') (cp : Int) (uses : Nat → Prop) :
    StepOk mine uses st ((setCodepage st.file cp).1, (⟨(setCodepage st.file cp).2, st.world⟩ : FileState))
      ((setCodepage st'.file cp).1, ⟨(setCodepage st'.file cp).2, st'.world⟩) := by
  unfold setCodepage
  split
  · exact .stay h _
  · exact ⟨rfl, ⟨congrArg (fun g : OleFile => { g with io := { g.io with codepage := cp } }) h.same, h.held, h.users⟩,
      Nat.le_refl _, fun _ _ _ _ => ⟨rfl, rfl⟩, fun a ea => Or.inl ea⟩

theorem signalAbort_step {st st' : FileState} (h : Sim mine st st') (uses : Nat → Prop) :
    StepOk mine uses st ((.ok () : Res Unit), (⟨signalAbort st.file, st.world⟩ : FileState))
      (.ok (), ⟨signalAbort st'.file, st'.world⟩) :=
  ⟨rfl, ⟨congrArg (fun g : OleFile => { g with abort := true }) h.same, h.held, h.users⟩,
    Nat.le_refl _, fun _ _ _ _ => ⟨rfl, rfl⟩, fun _ ea => Or.inl ea⟩

theorem caller_step (cmp : Bytes → Bytes → Option Bool) {st st' : FileState} (h : Sim mine st st') (n : Nat)
    (b : Bool) (dev : Dev) :
    StepOk mine (· = n) st ((FileOp.caller n b dev).run cmp st) ((FileOp.caller n b dev).run cmp st') := by
  have hh : (st.file.handle = some (.user n)) ↔ (st'.file.handle = some (.user n)) := by
    rcases h.held with ⟨e, e'⟩ | ⟨k, k', e, e', hq, -⟩
    · rw [e, e']
    · rw [e, e']
      rcases hq with ⟨m, rfl, rfl, _⟩ | ⟨a, c, rfl, rfl, _, _⟩
      · exact Iff.rfl
      · simp
  unfold FileOp.run
  dsimp only
  by_cases h1 : st.file.handle = some (.user n)
  · rw [if_pos h1, if_pos (hh.mp h1)]
    exact .stay h _
  · rw [if_neg h1, if_neg (fun e => h1 (hh.mpr e))]
    refine ⟨rfl, ⟨h.same, ?_, ?_⟩, Nat.le_refl _, fun x _ hx _ => ⟨if_neg (hx n rfl), if_neg (hx n rfl)⟩, fun a ea => Or.inl ea⟩
    · rcases h.held with h0 | ⟨k, k', e, e', hq, hk⟩
      · exact Or.inl h0
      · refine Or.inr ⟨k, k', e, e', hq, ?_⟩
        have a1 : k ≠ .user n := fun x => h1 (x ▸ e)
        have a2 : k' ≠ .user n := fun x => h1 (hh.mpr (x ▸ e'))
        exact ⟨(if_neg a1).trans (hk.1.trans (if_neg a2).symm), (if_neg a1).trans (hk.2.trans (if_neg a2).symm)⟩
    · intro m hm
      by_cases e : (HandleId.user m) = .user n
      · exact ⟨(if_pos e).trans (if_pos e).symm, (if_pos e).trans (if_pos e).symm⟩
      · have hk := h.users m hm
        exact ⟨(if_neg e).trans (hk.1.trans (if_neg e).symm), (if_neg e).trans (hk.2.trans (if_neg e).symm)⟩

theorem StepOk.map {α β : Type} {uses : Nat → Prop} {st : FileState} {r r' : Res α × FileState}
    (h : StepOk mine uses st r r') (g : Res α → Res β) : StepOk mine uses st (g r.1, r.2) (g r'.1, r'.2) :=
  ⟨congrArg g h.reply, h.sim, h.made, h.others, h.lib⟩

theorem object_step (cmp : Bytes → Bytes → Option Bool) {st st' : FileState} (h : Sim mine st st') (op : ObjectOp)
    (ho : ∀ n, op.uses n → mine n) : StepOk mine op.uses st (op.run cmp st) (op.run cmp st') := by
  cases op with
  | call op =>
    cases op with
    | openHandle n flags flt => exact (openHandle_step cmp h n (ho n rfl) flags flt).map fun r => r.bind fun _ => Res.ok true
    | openName dev flags flt => exact (openName_step cmp h dev flags flt _).map fun r => r.bind fun _ => Res.ok true
    | close flt => exact (closeFile_step h flt _).map fun r => r.bind fun _ => Res.ok true
    | setCodepage cp => exact (setCodepage_step h cp _).map fun r => r.bind fun _ => Res.ok true
    | signalAbort => exact (signalAbort_step h _).map fun r => r.bind fun _ => Res.ok true
    | caller n b dev => exact (caller_step cmp h n b dev).map fun r => r.bind fun _ => Res.ok true
  | renew flt => exact (renew_step h flt _).map fun r => r.bind fun _ => Res.ok true
  | check n flt => exact check_step h n (ho n rfl) flt
  | checkName dev flt => exact checkName_step h dev flt _

/-! ### Any number of objects -/

/-- Each object is as it would be alone, and no two have the same handle that the library made. -/
def Apart (owner : Nat → Nat) (s : Objects) (alone : Nat → FileState) : Prop :=
  (∀ i, Sim (fun n => owner n = i) ⟨s.file i, s.world⟩ (alone i)) ∧
    ∀ i j a, i ≠ j → (s.file i).handle = some (.lib a) → (s.file j).handle ≠ some (.lib a)

theorem apart_step (cmp : Bytes → Bytes → Option Bool) {owner : Nat → Nat} {s : Objects} {alone : Nat → FileState}
    (h : Apart owner s alone) (i : Nat) (op : ObjectOp) (ho : ∀ n, op.uses n → owner n = i) :
    (op.run cmp ⟨s.file i, s.world⟩).1 = (op.run cmp (alone i)).1 ∧
      Apart owner ⟨fun j => if j = i then (op.run cmp ⟨s.file i, s.world⟩).2.file else s.file j,
          (op.run cmp ⟨s.file i, s.world⟩).2.world⟩
        (fun j => if j = i then (op.run cmp (alone i)).2 else alone j) := by
  have hs := object_step cmp (h.1 i) op ho
  -- the handles of another object are left alone
  have far : ∀ j, j ≠ i → ∀ k, (s.file j).handle = some k ∨ (∃ n, k = .user n ∧ owner n = j) →
      HandleAs (op.run cmp ⟨s.file i, s.world⟩).2.world s.world k k := by
    intro j hj k hk
    have hk' : (∃ n, k = .user n ∧ owner n = j) ∨
        (∃ a, k = .lib a ∧ a < s.world.made ∧ (s.file j).handle = some (.lib a)) := by
      rcases hk with hk | hk
      · rcases (h.1 j).held with ⟨e, -⟩ | ⟨x, x', e, -, hp, -⟩
        · dsimp only at e; rw [hk] at e; cases e
        · dsimp only at e
          rw [hk] at e
          cases e
          rcases hp with ⟨n, rfl, -, hn⟩ | ⟨a, b, rfl, -, la, -⟩
          · exact Or.inl ⟨n, rfl, hn⟩
          · exact Or.inr ⟨a, rfl, la, hk⟩
      · exact Or.inl hk
    refine hs.others k ?_ ?_ ?_
    · intro e
      dsimp only at e
      rcases hk' with ⟨n, rfl, hn⟩ | ⟨a, rfl, la, ha⟩
      · rcases (h.1 i).held with ⟨e', -⟩ | ⟨x, x', e', -, hp, -⟩
        · dsimp only at e'; rw [e] at e'; cases e'
        · dsimp only at e'
          rw [e] at e'
          cases e'
          rcases hp with ⟨m, em, -, hm⟩ | ⟨a, b, ea, -⟩
          · cases em; exact hj (hn.symm.trans hm)
          · cases ea
      · exact h.2 i j a (Ne.symm hj) e ha
    · intro n hn e
      rcases hk' with ⟨m, rfl, hm⟩ | ⟨a, rfl, -⟩
      · cases e; exact hj (hm.symm.trans (ho n hn))
      · cases e
    · intro e
      rcases hk' with ⟨m, rfl, hm⟩ | ⟨a, rfl, la, -⟩
      · cases e
      · cases e; exact Nat.lt_irrefl _ la
  refine ⟨hs.reply, fun j => ?_, fun j l a hjl ej el => ?_⟩
  · dsimp only
    by_cases hj : j = i
    · subst hj
      rw [if_pos rfl, if_pos rfl]
      exact hs.sim
    · rw [if_neg hj, if_neg hj]
      have hS := h.1 j
      refine ⟨hS.same, ?_, fun n hn => (far j hj _ (Or.inr ⟨n, rfl, hn⟩)).trans (hS.users n hn)⟩
      rcases hS.held with h0 | ⟨k, k', e, e', hp, hk⟩
      · exact Or.inl h0
      · refine Or.inr ⟨k, k', e, e', ?_, (far j hj k (Or.inl e)).trans hk⟩
        rcases hp with hp | ⟨a, b, ea, eb, la, lb⟩
        · exact Or.inl hp
        · exact Or.inr ⟨a, b, ea, eb, Nat.lt_of_lt_of_le la hs.made, lb⟩
  · dsimp only at ej el
    -- a handle of object `i` is its old one or a new one
    have new : ∀ m, m ≠ i → (s.file m).handle = some (.lib a) →
        (op.run cmp ⟨s.file i, s.world⟩).2.file.handle ≠ some (.lib a) := by
      intro m hm em e
      rcases hs.lib a e with e | e
      · exact h.2 m i a hm em e
      · rcases (h.1 m).held with ⟨e', -⟩ | ⟨x, x', e', -, hp, -⟩
        · dsimp only at e'; rw [em] at e'; cases e'
        · dsimp only at e'
          rw [em] at e'
          cases e'
          rcases hp with ⟨n, en, -⟩ | ⟨a', b, ea, -, la, -⟩
          · cases en
          · cases ea; dsimp only at e la; omega
    by_cases hj : j = i
    · rw [if_pos hj] at ej
      rw [if_neg (fun hl => hjl (hj.trans hl.symm))] at el
      exact new l (fun hl => hjl (hj.trans hl.symm)) el ej
    · rw [if_neg hj] at ej
      by_cases hl : l = i
      · rw [if_pos hl] at el
        exact new j hj ej el
      · rw [if_neg hl] at el
        exact h.2 j l a hjl ej el

theorem ofObject_cons {α : Type} (i j : Nat) (a : α) (l : List (Nat × α)) :
    ofObject i ((j, a) :: l) = if j = i then a :: ofObject i l else ofObject i l := by
  unfold ofObject
  by_cases h : j = i <;> simp [h]

theorem apart_run (cmp : Bytes → Bytes → Option Bool) {owner : Nat → Nat} (ops : List (Nat × ObjectOp)) :
    ∀ (s : Objects) (alone : Nat → FileState), Apart owner s alone →
      (∀ x ∈ ops, ∀ n, x.2.uses n → owner n = x.1) →
      ∀ i, ofObject i (runObjects cmp s ops).1 = (runObject cmp (alone i) (ofObject i ops)).1 ∧
        Sim (fun n => owner n = i) ⟨(runObjects cmp s ops).2.file i, (runObjects cmp s ops).2.world⟩
          (runObject cmp (alone i) (ofObject i ops)).2 := by
  induction ops with
  | nil => intro s alone h _ i; exact ⟨rfl, h.1 i⟩
  | cons x ops ih =>
    obtain ⟨j, op⟩ := x
    intro s alone h ho i
    have hst := apart_step cmp h j op (ho (j, op) (List.mem_cons_self ..))
    have hi := ih _ _ hst.2 (fun x hx => ho x (List.mem_cons_of_mem _ hx)) i
    rw [ofObject_cons]
    unfold runObjects
    dsimp only at hi ⊢
    rw [ofObject_cons]
    by_cases hj : j = i
    · subst hj
      rw [if_pos rfl] at hi
      rw [if_pos rfl, if_pos rfl]
      unfold runObject
      exact ⟨by rw [hst.1, hi.1], hi.2⟩
    · rw [if_neg (Ne.symm hj)] at hi
      rw [if_neg hj, if_neg hj]
      exact hi

/-- C115: a program uses any number of file objects in any order.  If no handle of the caller is used with two of them,
  every call replies as it would if the program had used only the object of the call, and each object, its handle and
  the handles of the caller that are used with it are afterwards as they would be then (but for the number of a handle
  that the library made). -/
theorem C115_objects (cmp : Bytes → Bytes → Option Bool) (w : World) (owner : Nat → Nat) (ops : List (Nat × ObjectOp))
    (ho : ∀ x ∈ ops, ∀ n, x.2.uses n → owner n = x.1) (i : Nat) :
    let all := runObjects cmp ⟨fun _ => OleFile.new, w⟩ ops
    let one := runObject cmp ⟨OleFile.new, w⟩ (ofObject i ops)
    ofObject i all.1 = one.1 ∧
      { all.2.file i with handle := none } = { one.2.file with handle := none } ∧
      (all.2.file i).handle.map (fun k => (all.2.world.isOpen k, all.2.world.dev k)) =
        one.2.file.handle.map (fun k => (one.2.world.isOpen k, one.2.world.dev k)) ∧
      ∀ n, owner n = i → all.2.world.isOpen (.user n) = one.2.world.isOpen (.user n) ∧
        all.2.world.dev (.user n) = one.2.world.dev (.user n) := by
  have h0 : Apart owner ⟨fun _ => OleFile.new, w⟩ (fun _ => ⟨OleFile.new, w⟩) :=
    ⟨fun i => ⟨rfl, Or.inl ⟨rfl, rfl⟩, fun n _ => ⟨rfl, rfl⟩⟩, fun i j a _ e => nomatch e⟩
  obtain ⟨h1, h2⟩ := apart_run cmp ops _ _ h0 ho i
  refine ⟨h1, h2.same, ?_, h2.users⟩
  rcases h2.held with ⟨e, e'⟩ | ⟨k, k', e, e', -, hk⟩
  · dsimp only at e e' ⊢
    rw [e, e']
    rfl
  · dsimp only at e e' ⊢
    rw [e, e']
    exact congrArg some (Prod.ext hk.1 hk.2)

/-- The two objects of the example: object 0 opens handle 1 of the caller, object 1 a file by its name; handle 2 is
  only checked.  In between, both are used. -/
def sampleObjectOps : List (Nat × ObjectOp) :=
  [(0, .call (.openHandle 1 1 {})), (1, .call (.openName (Dev.ofBytes (sampleFile .big)) 1 {})),
   (1, .check 2 {}), (0, .call (.setCodepage 1250)), (0, .call (.openName (Dev.ofBytes []) 1 {})),
   (1, .call (.close {})), (1, .renew {}), (0, .call (.close { closing := true }))]

/-- Nothing but the handles of the caller keeps the objects of the example apart: they overlap in time. -/
example (i : Nat) :
    ofObject i (runObjects cmpNone ⟨fun _ => OleFile.new, sampleWorld⟩ sampleObjectOps).1 =
      (runObject cmpNone ⟨OleFile.new, sampleWorld⟩ (ofObject i sampleObjectOps)).1 := by
  refine (C115_objects cmpNone sampleWorld (fun n => n - 1) sampleObjectOps ?_ i).1
  intro x hx n hn
  simp only [sampleObjectOps, List.mem_cons, List.not_mem_nil, or_false] at hx
  rcases hx with rfl | rfl | rfl | rfl | rfl | rfl | rfl | rfl <;> first | exact hn.elim | (cases hn; rfl)

/-- A handle of the caller in two objects: the first one opened it and closes it, while the second one is still open. -/
theorem C115_shared_handle_violated :
    ∃ (w : World) (ops : List (Nat × ObjectOp)) (n : Nat),
      (∀ r ∈ (runObjects cmpNone ⟨fun _ => OleFile.new, w⟩ ops).1, r.2 = .ok true) ∧
      ((runObjects cmpNone ⟨fun _ => OleFile.new, w⟩ ops).2.file 1).handle = some (.user n) ∧
      (runObjects cmpNone ⟨fun _ => OleFile.new, w⟩ ops).2.world.isOpen (.user n) = false ∧
      (runObject cmpNone ⟨OleFile.new, w⟩ (ofObject 1 ops)).2.file.handle = some (.user n) ∧
      (runObject cmpNone ⟨OleFile.new, w⟩ (ofObject 1 ops)).2.world.isOpen (.user n) = true := by
  have he : ∀ w : World, (⟨OleFile.new, w⟩ : FileState).file.handle = none → (⟨OleFile.new, w⟩ : FileState).file.Empty :=
    fun _ _ => ⟨rfl, rfl, rfl, rfl, rfl, rfl⟩
  have o1 := sample_opens 1
  unfold sampleState at o1
  obtain ⟨l, _, _, _, _, _, hf, hw⟩ := openHandle_loaded (he sampleWorld) o1
  have o2 : (openHandle cmpNone (.user 1) 1 {} ⟨OleFile.new, sampleWorld.ensureOpen (.user 1)⟩).1 = .ok () :=
    (openHandle_as cmpNone (W := sampleWorld.ensureOpen (.user 1)) (w := sampleWorld) (k := .user 1) (k' := .user 0)
      ⟨rfl, rfl⟩ 1 {} OleFile.new rfl).1.trans (sample_opens 0)
  obtain ⟨l2, _, _, _, _, _, hf2, hw2⟩ := openHandle_loaded (he (sampleWorld.ensureOpen (.user 1))) o2
  refine ⟨sampleWorld, [(0, .call (.openHandle 1 1 {})), (1, .call (.openHandle 1 1 {})), (0, .call (.close {}))], 1, ?_⟩
  have c : ∀ f : OleFile, f.handle = some (.user 1) → f.openedInLibrary = true → f.createdInLibrary = false →
      ∀ w : World, w.isOpen (.user 1) = true →
        closeFile {} ⟨f, w⟩ = (.ok (), ⟨OleFile.new, (w.closeH {} (.user 1)).2⟩) ∧
        (w.closeH {} (.user 1)).2.isOpen (.user 1) = false := by
    intro f h1 h2 h3 w hw
    have e : (w.closeH {} (.user 1)).1 = true := by simp [World.closeH, hw]
    refine ⟨?_, by simp [World.closeH, hw]⟩
    unfold closeFile
    dsimp only
    rw [h1]
    dsimp only
    rw [h2, h3]
    simp only [if_true, if_false, Bool.false_eq_true]
    rw [e]
    rfl
  have e1 : openHandle cmpNone (.user 1) 1 {} ⟨OleFile.new, sampleWorld⟩ =
      (.ok (), ⟨(openHandle cmpNone (.user 1) 1 {} ⟨OleFile.new, sampleWorld⟩).2.file, sampleWorld.ensureOpen (.user 1)⟩) := by
    rw [← hw, ← o1]
  have e2 : openHandle cmpNone (.user 1) 1 {} ⟨OleFile.new, sampleWorld.ensureOpen (.user 1)⟩ =
      (.ok (), ⟨(openHandle cmpNone (.user 1) 1 {} ⟨OleFile.new, sampleWorld.ensureOpen (.user 1)⟩).2.file,
        (sampleWorld.ensureOpen (.user 1)).ensureOpen (.user 1)⟩) := by
    rw [← hw2, ← o2]
  generalize (openHandle cmpNone (.user 1) 1 {} ⟨OleFile.new, sampleWorld⟩).2.file = f1 at e1 hf
  generalize (openHandle cmpNone (.user 1) 1 {} ⟨OleFile.new, sampleWorld.ensureOpen (.user 1)⟩).2.file = f2 at e2 hf2
  have a1 : f1.handle = some (.user 1) := by rw [hf]; rfl
  have a2 : f1.openedInLibrary = true := by rw [hf]; rfl
  have a3 : f1.createdInLibrary = false := by rw [hf]; rfl
  have b1 : f2.handle = some (.user 1) := by rw [hf2]; rfl
  obtain ⟨c1, c2⟩ := c f1 a1 a2 a3 ((sampleWorld.ensureOpen (.user 1)).ensureOpen (.user 1)) rfl
  simp only [runObjects, runObject, ofObject, ObjectOp.run, FileOp.run, e1, e2, c1, List.filterMap_cons, List.filterMap_nil,
    if_true, if_false, Nat.zero_ne_one, Nat.one_ne_zero]
  refine ⟨?_, b1, c2, a1, rfl⟩
  intro r hr
  simp only [List.mem_cons, List.not_mem_nil, or_false] at hr
  rcases hr with rfl | rfl | rfl <;> rfl

end Olecf.Props
