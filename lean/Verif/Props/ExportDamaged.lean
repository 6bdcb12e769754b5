import Verif.Props.DamageLost
import Verif.Props.ExportCrash
import Verif.Props.ExportLog

/-
  C112: exports of damaged files.
-/

namespace Olecf.Props
open Olecf.Spec

/-! ### Reads of the damaged device -/

theorem readAll_damaged {dev' dev : Dev} (hd : Damaged dev' dev) {c : FileCtx} (hc : c.dev = dev) (d : DirEntry) :
    ∀ (sizes : List Nat) (cur : Int) (pieces : List Bytes),
      readAll { c with dev := dev' } d cur sizes = some pieces → readAll c d cur sizes = some pieces := by
  intro sizes
  induction sizes with
  | nil => intro cur pieces h; exact h
  | cons n sizes ih =>
    intro cur pieces h
    rw [readAll] at h ⊢
    cases hr : (streamRead { c with dev := dev' } d cur n).1.res with
    | ok data =>
      rw [streamRead_damaged hd hc rfl d cur n hr, hr]
      rw [hr] at h
      dsimp only at h ⊢
      cases hk : readAll { c with dev := dev' } d (streamRead { c with dev := dev' } d cur n).2 sizes with
      | none => rw [hk] at h; cases h
      | some ps => rw [hk] at h; rw [ih _ _ hk]; exact h
    | _ => rw [hr] at h; cases h

theorem readPrefix_damaged {dev' dev : Dev} (hd : Damaged dev' dev) {c : FileCtx} (hc : c.dev = dev) {d : DirEntry}
    {data : Bytes} (h : ReadPrefix { c with dev := dev' } d data) : ReadPrefix c d data := by
  obtain ⟨sizes, pieces, h1, h2, h3, h4⟩ := h
  exact ⟨sizes, pieces, h1, h2, readAll_damaged hd hc d _ _ _ h3, h4⟩

/-! ### Exports without a message of a failure -/

/-- If the first is without errors and messages of failures, the second is the same. -/
def Follows (P P0 : Disk → Logged α) : Prop := ∀ w, Clean (P w) → P0 w = P w

theorem Follows.then {P P0 : Disk → Logged α} {Q Q0 : Disk → α → Logged β} (hP : Follows P P0)
    (hQ : ∀ a, Follows (Q · a) (Q0 · a)) :
    Follows (fun w => logThen (P w) Q) fun w => logThen (P0 w) Q0 := by
  intro w h
  dsimp only at h ⊢
  have hcl : Clean (P w) := by
    rcases hr : P w with ⟨⟨w1, r⟩, l⟩
    rw [hr] at h
    cases r with
    | ok a => exact ⟨⟨a, rfl⟩, fun i n hm => h.2 i n (List.mem_append.2 (.inl hm))⟩
    | _ => obtain ⟨⟨_, h⟩, _⟩ := h; cases h
  rw [hP w hcl]
  rcases hr : P w with ⟨⟨w1, r⟩, l⟩
  rw [hr] at h
  cases r with
  | ok a =>
    show saying l (Q0 w1 a) = saying l (Q w1 a)
    have := hQ a w1 ⟨h.1, fun i n hm => h.2 i n (List.mem_append.2 (.inr hm))⟩
    dsimp only at this
    rw [this]
  | _ => rfl

theorem Follows.saying {P P0 : Disk → Logged α} (hP : Follows P P0) (l : List ExportMessage) :
    Follows (fun w => saying l (P w)) fun w => saying l (P0 w) := by
  intro w h
  show Olecf.saying l (P0 w) = Olecf.saying l (P w)
  rw [hP w ⟨h.1, fun i n hm => h.2 i n (List.mem_append.2 (.inr hm))⟩]

theorem Follows.refl (P : Disk → Logged α) : Follows P P := fun _ _ => rfl

/-- The same export, from the damaged device. -/
abbrev onto (env : ExportEnv) (dev' : Dev) : ExportEnv := { env with ctx := { env.ctx with dev := dev' } }

section
variable {dev' dev : Dev} (hd : Damaged dev' dev) {env : ExportEnv} (hc : env.ctx.dev = dev)
include hd hc

theorem copyLoop_follows (d : DirEntry) (p : Path) : ∀ (fuel remaining : Nat) (cur : Int) (w : Disk),
    (copyLoop (onto env dev') d p fuel remaining cur w).2 = .ok () →
    copyLoop env d p fuel remaining cur w = copyLoop (onto env dev') d p fuel remaining cur w := by
  intro fuel
  induction fuel with
  | zero =>
    intro remaining cur w h
    unfold copyLoop at h ⊢
    by_cases h0 : remaining = 0
    · rw [if_pos h0]
    · rw [if_neg h0] at h
  | succ fuel ih =>
    intro remaining cur w h
    unfold copyLoop at h ⊢
    by_cases h0 : remaining = 0
    · rw [if_pos h0, if_pos h0]
    rw [if_neg h0] at h
    rw [if_neg h0, if_neg h0]
    dsimp only at h ⊢
    generalize (if exportBufferSize > remaining then remaining else exportBufferSize) = n at h ⊢
    cases hr : (streamRead { env.ctx with dev := dev' } d cur n).1.res with
    | ok data =>
      rw [streamRead_damaged hd hc rfl d cur n hr, hr]
      rw [hr] at h
      simp only [diskThen] at h ⊢
      by_cases hl : data.length ≠ n
      · rw [if_pos hl, if_pos hl]
      rw [if_neg hl] at h
      rw [if_neg hl, if_neg hl]
      have ha : fsAppend env w p data = fsAppend (onto env dev') w p data := rfl
      rw [ha]
      rcases hx : fsAppend (onto env dev') w p data with ⟨w1, r⟩
      rw [hx] at h
      cases r with
      | ok a =>
        simp only [] at h ⊢
        exact ih _ _ _ h
      | err => rfl
      | ub => rfl
      | hang => rfl
    | _ => rw [hr] at h; cases h

theorem writeItemDataLog_follows (d : DirEntry) (dir : Path) :
    Follows (writeItemDataLog (onto env dev') d dir) (writeItemDataLog env d dir) := by
  unfold writeItemDataLog
  refine Follows.then (P := fun w => silent (fsExists (onto env dev') w (resolve dir dataName)))
    (P0 := fun w => silent (fsExists env w (resolve dir dataName))) (fun _ _ => rfl) fun found => ?_
  cases found with
  | true =>
    simp only [if_true]
    exact .refl _
  | false =>
    simp only [Bool.false_eq_true, if_false]
    refine Follows.then (P := fun w => silent (fsCreate (onto env dev') w (resolve dir dataName)))
      (P0 := fun w => silent (fsCreate env w (resolve dir dataName))) (fun _ _ => rfl) fun _ => ?_
    refine Follows.then
      (P := fun w => silent (copyLoop (onto env dev') d (resolve dir dataName) d.size d.size 0 w))
      (P0 := fun w => silent (copyLoop env d (resolve dir dataName) d.size d.size 0 w)) ?_ fun _ => ?_
    · intro w h
      obtain ⟨⟨a, h⟩, _⟩ := h
      dsimp only [silent] at h ⊢
      rw [copyLoop_follows hd hc d _ _ _ _ w h]
    · exact fun _ _ => rfl

omit hd hc in
theorem exportLoopLog_follows {f f0 : Item → Nat → Disk → Logged Unit} (hf : ∀ it i, Follows (f it i) (f0 it i))
    (it : Item) (count : Nat) : ∀ (k index : Nat),
    Follows (exportLoopLog (onto env dev') f it count k index) (exportLoopLog env f0 it count k index) := by
  intro k
  induction k with
  | zero => intro index; exact .refl _
  | succ k ih =>
    intro index
    show Follows (fun w => exportLoopLog (onto env dev') f it count (k + 1) index w)
      fun w => exportLoopLog env f0 it count (k + 1) index w
    simp only [exportLoopLog]
    refine Follows.then (P := fun w => silent (pureStep w (getSubItem env.tree it index)))
      (P0 := fun w => silent (pureStep w (getSubItem env.tree it index))) (fun _ _ => rfl) fun sub => ?_
    intro w h
    dsimp only at h ⊢
    have hcl : Clean (f sub index w) := by
      rcases hr : f sub index w with ⟨⟨w1, r⟩, l⟩
      rw [hr] at h
      cases r with
      | ok a => exact ⟨⟨a, rfl⟩, fun i n hm => h.2 i n (List.mem_append.2 (.inl hm))⟩
      | err =>
        refine absurd (h.2 (index + 1) count (List.mem_append.2 (.inl ?_))) id
        simp
      | _ => obtain ⟨⟨_, h⟩, _⟩ := h; cases h
    rw [hf sub index w hcl]
    rcases hr : f sub index w with ⟨⟨w1, r⟩, l⟩
    rw [hr] at h hcl
    cases r with
    | ok a =>
      show saying l _ = saying l _
      rw [ih (index + 1) w1 ⟨h.1, fun i n hm => h.2 i n (List.mem_append.2 (.inr hm))⟩]
    | _ => obtain ⟨⟨_, h⟩, _⟩ := hcl; cases h

theorem exportItemLog_follows : ∀ (fuel : Nat) (dir : Path) (it : Item) (index : Nat),
    Follows (exportItemLog (onto env dev') fuel dir it index) (exportItemLog env fuel dir it index) := by
  intro fuel
  induction fuel with
  | zero => intro dir it index; exact .refl _
  | succ fuel ih =>
    intro dir it index
    show Follows (fun w => exportItemLog (onto env dev') (fuel + 1) dir it index w)
      fun w => exportItemLog env (fuel + 1) dir it index w
    simp only [exportItemLog]
    refine Follows.then (P := fun w => makeItemDirectoryLog (onto env dev') it.entry index dir w)
      (P0 := fun w => makeItemDirectoryLog env it.entry index dir w) (fun _ _ => rfl) fun itemDir => ?_
    refine Follows.then (writeItemDataLog_follows hd hc it.entry itemDir) fun written => ?_
    cases written with
    | false =>
      simp only [Bool.false_eq_true, if_false]
      exact .refl _
    | true =>
      simp only [if_true]
      exact exportLoopLog_follows (fun s i => ih itemDir s i) it _ _ _

/-- An export of the damaged file that tells of no failure is the export of the whole one. -/
theorem exportFileLog_follows (fuel : Nat) (dir : Path) :
    Follows (exportFileLog (onto env dev') fuel dir) (exportFileLog env fuel dir) := by
  unfold exportFileLog
  refine Follows.then (P := fun w => silent (fsMkdir (onto env dev') w dir))
    (P0 := fun w => silent (fsMkdir env w dir)) (fun _ _ => rfl) fun _ => Follows.saying ?_ _
  exact exportLoopLog_follows (fun s i => exportItemLog_follows hd hc fuel dir s i) _ _ _ _

end

/-! ### What is exported of a damaged file -/

/-- Every read of the item succeeds (or it has no data). -/
def ReadsAll (f : FileCtx) (d : DirEntry) : Prop :=
  d.size = 0 ∨ ∀ cur size : Nat, size ≤ 2 ^ 63 - 1 → ∃ data, (streamRead f d cur size).1.res = .ok data

/-- All items from `it` on have a directory, and those of which every read succeeds their data. -/
def Rescued (env : ExportEnv) (nameOf : DirEntry → Bytes) (fs : Fs) (dir : Path) (it : Item) : Prop :=
  ∀ names x, NamedFrom env.tree nameOf it names x → fs.dir (dir ++ names) = true ∧
    (ReadsAll env.ctx x.entry → ∃ sizes pieces, sizes.sum = x.entry.size ∧ (x.entry.size ≠ 0 → sizes ≠ []) ∧
      (x.entry.size = 0 → sizes = []) ∧ readAll env.ctx x.entry 0 sizes = some pieces ∧
      fs.file (dir ++ names ++ [dataName]) = some pieces.flatten)

theorem Rescued.grown {env : ExportEnv} {nameOf : DirEntry → Bytes} {fs fs' : Fs} {dir q : Path}
    {it : Item} (h : Rescued env nameOf fs dir it) (hg : GrownAt q fs fs') : Rescued env nameOf fs' dir it := by
  intro names x hx
  obtain ⟨h1, h2⟩ := h names x hx
  refine ⟨hg.dirs _ h1, fun hs => ?_⟩
  obtain ⟨sizes, pieces, k1, k2, k3, k4, k5⟩ := h2 hs
  exact ⟨sizes, pieces, k1, k2, k3, k4, hg.files _ _ k5⟩

theorem exportLoop_rescue {env : ExportEnv} {nameOf : DirEntry → Bytes} {start : Item}
    (hx : Nameable env nameOf start) {f : Item → Nat → Disk → Disk × Res Unit} {dir : Path}
    {names : List Bytes} {it : Item} (hnm : NamedFrom env.tree nameOf start names it)
    (hone : ∀ (i : Nat) s, getSubItem env.tree it i = .ok s → ∀ w : Disk, Tidy w.fs →
      w.fs.dir dir = true → w.fs.has (dir ++ [nameOf s.entry]) = false →
      (f s i w).2.Defined ∧ Tidy (f s i w).1.fs ∧
        GrownAt (dir ++ [nameOf s.entry]) w.fs (f s i w).1.fs ∧
        Rescued env nameOf (f s i w).1.fs (dir ++ [nameOf s.entry]) s) :
    ∀ (k index : Nat) (w : Disk), index + k = numberOfSubItems env.tree it → Tidy w.fs →
      w.fs.dir dir = true →
      (∀ (i : Nat) s, getSubItem env.tree it i = .ok s → index ≤ i →
        w.fs.has (dir ++ [nameOf s.entry]) = false) →
      GrownAt dir w.fs (exportLoop env f it k index w).1.fs ∧
      ∀ (i : Nat) s, getSubItem env.tree it i = .ok s → index ≤ i →
        Rescued env nameOf (exportLoop env f it k index w).1.fs (dir ++ [nameOf s.entry]) s := by
  intro k
  induction k with
  | zero =>
    intro index w hk ht hdir hno
    refine ⟨.refl _ _, ?_⟩
    intro i s hi hle
    exfalso
    obtain ⟨e, he, _⟩ := getSubItem_ok.1 hi
    have := (List.getElem?_eq_some_iff.1 he).1
    unfold numberOfSubItems at hk
    omega
  | succ k ih =>
    intro index w hk ht hdir hno
    have hlt : index < (env.tree.kids it.node).length := by unfold numberOfSubItems at hk; omega
    have hsub : getSubItem env.tree it index = .ok (.ofEntry (env.tree.kids it.node)[index]) :=
      getSubItem_ok.2 ⟨_, List.getElem?_eq_getElem hlt, rfl⟩
    generalize Item.ofEntry (env.tree.kids it.node)[index] = s at hsub
    obtain ⟨h1, h2, h3, h4⟩ := hone index s hsub w ht hdir (hno index s hsub (Nat.le_refl _))
    unfold exportLoop pureStep
    rw [hsub]
    simp only [diskThen]
    cases hr : f s index w with
    | mk w1 r =>
      rw [hr] at h1 h2 h3 h4
      simp only [] at h2 h3 h4
      obtain ⟨k1, k2⟩ := ih (index + 1) w1 (by omega) h2 (h3.dirs _ hdir) (by
        intro i x hi hle
        cases hh : w1.fs.has (dir ++ [nameOf x.entry]) with
        | false => rfl
        | true =>
          have := h3.fresh _ hh (hno i x hi (by omega))
          have := List.IsPrefix.eq_of_length this (by simp)
          simp at this
          have := hx.distinct names it hnm index i s x hsub hi this
          omega)
      have hall : GrownAt dir w.fs (exportLoop env f it k (index + 1) w1).1.fs ∧
          ∀ (i : Nat) s, getSubItem env.tree it i = .ok s → index ≤ i →
            Rescued env nameOf (exportLoop env f it k (index + 1) w1).1.fs (dir ++ [nameOf s.entry]) s := by
        refine ⟨(h3.mono (List.prefix_append _ _)).trans k1, ?_⟩
        intro i x hi hle
        by_cases he : i = index
        · subst he
          rw [hsub] at hi
          cases hi
          exact h4.grown k1
        · exact k2 i x hi (by omega)
      cases r with
      | ok _ => exact hall
      | err => exact hall
      | ub => exact absurd h1 id
      | hang => exact absurd h1 id

/-- A path by names is a path by the file names. -/
theorem NamedFrom.mapped {t : Tree} {start : Item} (g : Bytes → Bytes) {names : List Bytes} {it : Item}
    (h : NamedFrom t (fun d => d.name) start names it) :
    NamedFrom t (fun d => g d.name) start (names.map g) it := by
  induction h with
  | here => exact .here
  | @sub names it s i _ hi ih =>
    have := NamedFrom.sub ih hi
    simpa using this

theorem exportItem_rescue_step {env : ExportEnv} (hf : ∀ n, env.fault n = false) (hctx : WellFormedCtx env.ctx)
    {nameOf : DirEntry → Bytes} {start : Item} (hx : Nameable env nameOf start)
    (hfit : ∀ names it, NamedFrom env.tree nameOf start names it → ItemFits env.ctx it.entry)
    (hleaf : ∀ names it, NamedFrom env.tree nameOf start names it → names ≠ [] →
      it.entry.size = 0 ∨ numberOfSubItems env.tree it = 0)
    {fuel : Nat} {dir : Path} {names : List Bytes} {it : Item} {index : Nat} {w : Disk}
    (hsubs : ∀ (i : Nat) s, getSubItem env.tree it i = .ok s → ∀ w : Disk, Tidy w.fs →
      w.fs.dir (dir ++ [nameOf it.entry]) = true →
      w.fs.has (dir ++ [nameOf it.entry] ++ [nameOf s.entry]) = false →
      (exportItem env fuel (dir ++ [nameOf it.entry]) s i w).2.Defined ∧
        Tidy (exportItem env fuel (dir ++ [nameOf it.entry]) s i w).1.fs ∧
        GrownAt (dir ++ [nameOf it.entry] ++ [nameOf s.entry]) w.fs
          (exportItem env fuel (dir ++ [nameOf it.entry]) s i w).1.fs ∧
        Rescued env nameOf (exportItem env fuel (dir ++ [nameOf it.entry]) s i w).1.fs
          (dir ++ [nameOf it.entry] ++ [nameOf s.entry]) s)
    (hnm : NamedFrom env.tree nameOf start names it) (hne : names ≠ []) (ht : Tidy w.fs)
    (hdir : w.fs.dir dir = true) (hno : w.fs.has (dir ++ [nameOf it.entry]) = false) :
    Rescued env nameOf (exportItem env (fuel + 1) dir it index w).1.fs (dir ++ [nameOf it.entry]) it := by
  obtain ⟨hp, _⟩ := hx.plain names it hnm hne
  obtain ⟨tick, h1⟩ := makeItemDirectory_complete hf (hx.named names it hnm hne) hp index hdir hno
  unfold exportItem
  rw [h1]
  simp only [diskThen]
  obtain ⟨hg1, hg2⟩ := mkdir_tidy ht hno (by rw [List.dropLast_concat]; exact hdir)
  have hpd := addDir_dir w.fs (dir ++ [nameOf it.entry])
  have hempty : ∀ n, (w.fs.addDir (dir ++ [nameOf it.entry])).has
      (dir ++ [nameOf it.entry] ++ [n]) = false := fun n => addDir_empty ht hno n
  have hdef := writeItemData_defined hctx (hfit names it hnm) (dir ++ [nameOf it.entry])
    ⟨w.fs.addDir (dir ++ [nameOf it.entry]), tick⟩
  have hgr := writeItemData_grown (env := env) (d := it.entry)
    (w := ⟨w.fs.addDir (dir ++ [nameOf it.entry]), tick⟩) hg1 hpd
  have hcomp := fun hr => writeItemData_complete hf hctx (hfit names it hnm) hr
    (w := ⟨w.fs.addDir (dir ++ [nameOf it.entry]), tick⟩) hpd (hempty dataName)
  generalize hw1 : Disk.mk (w.fs.addDir (dir ++ [nameOf it.entry])) tick = w1 at hdef hgr hcomp ⊢
  have e1 : w1.fs = w.fs.addDir (dir ++ [nameOf it.entry]) := by rw [← hw1]
  rw [← e1] at hempty hpd
  -- an item that could not be read
  have hlost : ∀ fs : Fs, fs.dir (dir ++ [nameOf it.entry]) = true → ¬ ReadsAll env.ctx it.entry →
      Rescued env nameOf fs (dir ++ [nameOf it.entry]) it := by
    intro fs hfs hnr ns x hns
    rcases NamedFrom.first hns with ⟨rfl, rfl⟩ | ⟨i, s, ms, j1, _, _⟩
    · exact ⟨by simpa using hfs, fun h => absurd h hnr⟩
    · exfalso
      rcases hleaf names it hnm hne with h0 | h0
      · exact hnr (.inl h0)
      · obtain ⟨e, he, _⟩ := getSubItem_ok.1 j1
        have := (List.getElem?_eq_some_iff.1 he).1
        unfold numberOfSubItems at h0
        omega
  cases hr : writeItemData env it.entry (dir ++ [nameOf it.entry]) w1 with
  | mk w2 r =>
    rw [hr] at hdef hgr hcomp
    have hgr1 : Tidy w2.fs ∧ GrownAt (dir ++ [nameOf it.entry] ++ [dataName]) w1.fs w2.fs := hgr.1
    have hd2 : w2.fs.dir (dir ++ [nameOf it.entry]) = true := hgr1.2.dirs _ hpd
    cases r with
    | ub => exact absurd hdef id
    | hang => exact absurd hdef id
    | err =>
      refine hlost _ hd2 fun hs => ?_
      obtain ⟨w', h'⟩ := hcomp hs
      cases h'
    | ok b =>
      obtain ⟨hb, hdata⟩ := hgr.2 w2 b rfl
      rw [hempty dataName] at hb
      subst hb
      simp only [Bool.not_false, if_true]
      obtain ⟨sizes, pieces, p1, p2, p3, p4, p5⟩ := hdata rfl
      obtain ⟨k1, k2⟩ := exportLoop_rescue hx
        (f := exportItem env fuel (dir ++ [nameOf it.entry])) hnm hsubs
        (numberOfSubItems env.tree it) 0 w2 (by omega) hgr1.1 hd2 (by
          intro i s hi _
          cases hh : w2.fs.has (dir ++ [nameOf it.entry] ++ [nameOf s.entry]) with
          | false => rfl
          | true =>
            have := hgr1.2.fresh _ hh (hempty _)
            have := List.IsPrefix.eq_of_length this (by simp)
            simp at this
            exact absurd this.symm (hx.plain _ s (.sub hnm hi) (by simp)).2)
      intro ns x hns
      rcases NamedFrom.first hns with ⟨rfl, rfl⟩ | ⟨i, s, ms, j1, rfl, j3⟩
      · exact ⟨by simpa using k1.dirs _ hd2,
          fun _ => ⟨sizes, pieces, p1, p2, p3, p4, by simpa using k1.files _ _ p5⟩⟩
      · obtain ⟨q1, q2⟩ := k2 i s j1 (by omega) ms x j3
        refine ⟨by simpa using q1, fun hs => ?_⟩
        obtain ⟨sizes, pieces, p1, p2, p3, p4, p5⟩ := q2 hs
        exact ⟨sizes, pieces, p1, p2, p3, p4, by simpa using p5⟩

theorem exportItem_rescue {env : ExportEnv} (hf : ∀ n, env.fault n = false) (hctx : WellFormedCtx env.ctx)
    {nameOf : DirEntry → Bytes} {start : Item} (hx : Nameable env nameOf start)
    (hfit : ∀ names it, NamedFrom env.tree nameOf start names it → ItemFits env.ctx it.entry)
    (hleaf : ∀ names it, NamedFrom env.tree nameOf start names it → names ≠ [] →
      it.entry.size = 0 ∨ numberOfSubItems env.tree it = 0) :
    ∀ (n fuel : Nat) (dir : Path) (names : List Bytes) (it : Item) (index : Nat) (w : Disk),
      n < fuel → NestedAtMost env.tree n it → NamedFrom env.tree nameOf start names it →
      names ≠ [] → Tidy w.fs → w.fs.dir dir = true →
      w.fs.has (dir ++ [nameOf it.entry]) = false →
      Rescued env nameOf (exportItem env fuel dir it index w).1.fs (dir ++ [nameOf it.entry]) it := by
  intro n
  induction n with
  | zero =>
    intro fuel dir names it index w hlt hn hnm hne ht hdir hno
    cases fuel with
    | zero => omega
    | succ fuel =>
      refine exportItem_rescue_step hf hctx hx hfit hleaf ?_ hnm hne ht hdir hno
      intro i s hi
      exfalso
      obtain ⟨e, he, _⟩ := getSubItem_ok.1 hi
      have := (List.getElem?_eq_some_iff.1 he).1
      have hn : numberOfSubItems env.tree it = 0 := hn
      unfold numberOfSubItems at hn
      omega
  | succ n ih =>
    intro fuel dir names it index w hlt hn hnm hne ht hdir hno
    cases fuel with
    | zero => omega
    | succ fuel =>
      refine exportItem_rescue_step hf hctx hx hfit hleaf ?_ hnm hne ht hdir hno
      intro i s hi w ht hd hno
      have hp := exportItem_part hctx hx hfit n fuel _ _ s i w (by omega) (hn i s hi) (.sub hnm hi) (by simp) ht hd hno
      exact ⟨hp.1, hp.2.1, hp.2.2.1,
        ih fuel _ _ s i w (by omega) (hn i s hi) (.sub hnm hi) (by simp) ht hd hno⟩

/-- The export of a file some of whose reads fail, of a document that the whole file shows: what becomes of the
  items of which the reads that succeed are those of the whole file. -/
theorem export_rescue {env : ExportEnv} {c : FileCtx} {g : Bytes → Bytes} {doc : Doc} {fuel : Nat}
    (hready : ExportReady { env with ctx := c } g doc fuel) (hf : ∀ n, env.fault n = false)
    (hwf : WellFormedCtx env.ctx) (hfit : ∀ d, ItemFits c d → ItemFits env.ctx d)
    (P : DirEntry → Prop)
    (hread : ∀ d sizes pieces, P d → readAll env.ctx d 0 sizes = some pieces → readAll c d 0 sizes = some pieces)
    {dir : Path} {w : Disk} (ht : Tidy w.fs) (hno : w.fs.has dir = false)
    (hparent : w.fs.dir dir.dropLast = true) :
    ∀ path d, DocAt doc path d → (exportFile env fuel dir w).1.fs.dir (dir ++ path.map g) = true ∧
      (path ≠ [] → ∃ it, NamedFrom env.tree (fun d => d.name) ⟨none, env.tree.root⟩ path it ∧
        (P it.entry → ReadsAll env.ctx it.entry →
          (exportFile env fuel dir w).1.fs.file (dir ++ path.map g ++ [dataName]) = some d.data)) := by
  have hi := hready.items
  have hn : Nameable env (fun d => g d.name) ⟨none, env.tree.root⟩ :=
    ⟨hi.exportable.named, hi.exportable.plain, hi.exportable.distinct⟩
  obtain ⟨list, cmp, m, hnd, htree, hfits, hfuel⟩ := hready.tree
  have hne : dir ≠ [] := by
    rintro rfl
    rw [has_of_dir ht.root] at hno; cases hno
  have hrun : exportFile env fuel dir w =
      exportLoop env (exportItem env fuel dir) ⟨none, env.tree.root⟩
        (numberOfSubItems env.tree ⟨none, env.tree.root⟩) 0 ⟨w.fs.addDir dir, w.tick + 1⟩ := by
    unfold exportFile
    rw [fsMkdir_intro hf hno hne hparent]; rfl
  obtain ⟨hg1, hg2⟩ := mkdir_tidy ht hno hparent
  have hfit' : ∀ names it, NamedFrom env.tree (fun d => g d.name) ⟨none, env.tree.root⟩ names it →
      ItemFits env.ctx it.entry :=
    fun names it h => hfit _ (hi.fits _ it (export_named_item h).choose_spec.2)
  have hleaf : ∀ names it, NamedFrom env.tree (fun d => g d.name) ⟨none, env.tree.root⟩ names it → names ≠ [] →
      it.entry.size = 0 ∨ numberOfSubItems env.tree it = 0 := by
    intro names it h hne
    obtain ⟨path, d, _, _, h3, _⟩ := named_docAt hready.shows h
    cases h3 with
    | stream _ h0 _ _ => exact .inr h0
    | storage h1 => exact .inl (hi.zero h hne (by rcases h1 with h | h <;> rw [h] <;> decide))
  obtain ⟨k1, k2⟩ := exportLoop_rescue hn (f := exportItem env fuel dir) (dir := dir)
    NamedFrom.here
    (fun i s hsub w ht hd hno => by
      have hp : itemAt env.tree [i] = some s := (itemFrom_snoc _ [] _ i _).2 ⟨_, rfl, hsub⟩
      have hl := depth_lt hnd htree hp
      simp at hl
      have hna := nestedAtMost_of_depth hnd htree (list.length - 2) [i] s hp (by simp; omega)
      have hpart := exportItem_part hwf hn hfit' (list.length - 2) fuel dir _ s i w (by omega) hna
        (.sub .here hsub) (by simp) ht hd hno
      exact ⟨hpart.1, hpart.2.1, hpart.2.2.1, exportItem_rescue hf hwf hn hfit' hleaf (list.length - 2) fuel dir _ s i w
        (by omega) hna (.sub .here hsub) (by simp) ht hd hno⟩)
    (numberOfSubItems env.tree ⟨none, env.tree.root⟩) 0 ⟨w.fs.addDir dir, w.tick + 1⟩ (by omega)
    hg1 (addDir_dir _ _) (fun i s _ _ => addDir_empty ht hno _)
  rw [← hrun] at k1 k2
  intro path d hd
  obtain ⟨it, j1, j2⟩ := docAt_named (g := fun n => n) hready.shows hd
  rw [List.map_id'] at j1
  have hmap := NamedFrom.mapped g j1
  by_cases hp : path = []
  · subst hp
    exact ⟨by simpa using k1.dirs _ (addDir_dir _ _), fun h => absurd rfl h⟩
  · have hpn : path.map g ≠ [] := by simpa using hp
    rcases NamedFrom.first hmap with ⟨h0, _⟩ | ⟨i, s, ms, q1, q2, q3⟩
    · exact absurd h0 hpn
    · obtain ⟨r1, r2⟩ := k2 i s q1 (by omega) ms it q3
      refine ⟨by rw [q2]; simpa using r1, fun _ => ⟨it, j1, fun hP hs => ?_⟩⟩
      obtain ⟨sizes, pieces, e1, e2, e3, e4, e5⟩ := r2 hs
      obtain ⟨content, hdev⟩ := hready.dev
      have hw := whole_of_pieces hready.ctx hdev (hi.fits _ it (export_named_item hmap).choose_spec.2) e1 e2 e3
        (hread _ _ _ hP e4)
      rw [← hi.data hmap hpn j2 hw, q2]
      simpa using e5

/-! ### C112 -/

/-- A damaged file with a document, opened without a failed read: what the export of the whole file is ready for. -/
theorem damaged_ready {content : Bytes} {hd : HeaderFields} {slots : List SlotFields} {doc : Doc}
    (hf : HeldBy content hd slots doc) (cmp : Bytes → Bytes → Option Bool)
    (hcmp : ∀ n ∈ (entriesOfSlots slots).map (·.name), Comparable cmp n)
    (hshort : 2 ≤ hd.shortExp)
    (hsize : ∀ d ∈ entriesOfSlots slots, d.id ≠ 0 → d.type ≠ 2 → d.size = 0)
    (st : FileState) (hst : Reachable cmp st) (hclosed : st.file.handle = none)
    (h : HandleId) (hdev : Damaged (st.world.dev h) (Dev.ofBytes content))
    (flags : Nat) (hfl : flags % 4 = 1)
    (hreads : ∀ r ∈ (openRead cmp (st.world.dev h) st.file).1.reads, Readable (st.world.dev h) r) :
    (openHandle cmp h flags {} st).1 = .ok () ∧
    ∃ t f c, (openHandle cmp h flags {} st).2.file.tree = some t ∧
      (openHandle cmp h flags {} st).2.file.ctx
        ((openHandle cmp h flags {} st).2.world.dev h) = some f ∧
      f = { c with dev := st.world.dev h } ∧ c.dev = Dev.ofBytes content ∧ WellFormedCtx c ∧
      ∀ (env : ExportEnv) (g : Bytes → Bytes) (fuel : Nat),
        env.tree = t → env.ctx = c → NoSeparator env.sanitize →
        GoodNames g doc →
        (∀ (d : DirEntry) path x, DocAt doc (path ++ [d.name]) x →
          (env.utf8Name d).bind env.sanitize = some (g d.name)) →
        (entriesOfSlots slots).length ≤ fuel → ExportReady env g doc fuel := by
  have hok := (C111_document_partial ⟨hd, slots, hf, rfl⟩ cmp hcmp st hst hclosed h hdev flags hfl hreads).1
  refine ⟨hok, ?_⟩
  have hempty := (reachable_inv hst).closed hclosed
  rw [openRead_reads hempty] at hreads
  have hsame : ∀ io, (openCore cmp (Dev.ofBytes content) io) = openCore cmp (st.world.dev h) io := by
    intro io
    refine openCore_damaged hdev cmp io fun r hr => hreads r ?_
    rw [(openCore_io cmp (st.world.dev h) st.file.io io).1]
    exact hr
  obtain ⟨l, hdr, t0, list, tree, ho, hfile, hworld⟩ := openHandle_loaded (reachable_inv hst).closed hok
  obtain ⟨h1, h2⟩ := openCore_ok_iff.2 ⟨_, _, _, _, ho⟩
  obtain ⟨l', t, m, hl', ht, htree, hfits, hwf, hsec, hse, hroot, hs⟩ := heldBy_loaded hf cmp hcmp st.file.io
  rw [hsame] at hs hl' hwf hsec hse
  rw [h1] at hl'
  cases hl'
  rw [h2] at hs hwf hsec hse
  have hwd : (openHandle cmp h flags {} st).2.world.dev h = st.world.dev h := by
    rw [hworld, (ensureOpen_isOpen _ _).2.2.1]
  have hnd := entriesOfSlots_nodup slots
  have huniq := (C16_no_item_twice _ cmp hnd _ m htree).2
  have hmem := (C16_no_item_twice _ cmp hnd _ m htree).1
  refine ⟨t, _, _, by rw [hfile]; exact ht, by rw [hwd, hfile]; rfl, rfl, ?_, hwf, ?_⟩
  · rfl
  intro env g fuel e1 e2 hsep hg hname hfuel
  subst e1
  refine ⟨⟨_, cmp, m, hnd, htree, hfits, hfuel⟩, by rw [e2]; exact hwf,
    by rw [e2]; exact Nat.le_trans (by decide) hsec,
    by rw [e2]; exact Nat.le_trans (Nat.pow_le_pow_right (n := 2) (by decide) hshort) (Nat.le_of_eq hse.symm),
    ⟨content, by rw [e2]⟩, by rw [e2]; exact hs, ?_, hsep, hg, hname⟩
  intro p it hp hne hty
  refine hsize _ (hmem p it hp) ?_ hty
  intro h0
  exact hne (huniq p [] it ⟨none, env.tree.root⟩ hp rfl (by rw [h0]; exact hroot.symm))

/-- C112: the export of a damaged file.  For every file that holds a document and every damaged copy of it that is
  opened without a failed read, whatever reads of the streams fail after that:
  * whatever operations of the target file system fail, or at which one the program is killed, what is there
    is a part of the image of the document: its directories, and data files with an initial segment of the data;
  * an export that ends with success and without a message of an item that it could not export has left the
    whole image, and none of its operations on the target failed;
  * if no operation on the target fails, every part of the document has its directory, and every stream of
    which all reads succeed is there with all its data, whatever happened to the others.
  Missing: files that are opened though a read failed (`C111_open_violated`), and what C61 assumes. -/
theorem C112_export_damaged_partial {content : Bytes} {hd : HeaderFields} {slots : List SlotFields} {doc : Doc}
    (hf : HeldBy content hd slots doc) (cmp : Bytes → Bytes → Option Bool)
    (hcmp : ∀ n ∈ (entriesOfSlots slots).map (·.name), Comparable cmp n)
    (hshort : 2 ≤ hd.shortExp)
    (hsize : ∀ d ∈ entriesOfSlots slots, d.id ≠ 0 → d.type ≠ 2 → d.size = 0)
    (st : FileState) (hst : Reachable cmp st) (hclosed : st.file.handle = none)
    (h : HandleId) (hdev : Damaged (st.world.dev h) (Dev.ofBytes content))
    (flags : Nat) (hfl : flags % 4 = 1)
    (hreads : ∀ r ∈ (openRead cmp (st.world.dev h) st.file).1.reads, Readable (st.world.dev h) r) :
    (openHandle cmp h flags {} st).1 = .ok () ∧
    ∃ t f, (openHandle cmp h flags {} st).2.file.tree = some t ∧
      (openHandle cmp h flags {} st).2.file.ctx
        ((openHandle cmp h flags {} st).2.world.dev h) = some f ∧
      ∀ (env : ExportEnv) (g : Bytes → Bytes) (fuel : Nat) (dir : Path) (w : Disk),
        env.tree = t → env.ctx = f → NoSeparator env.sanitize → GoodNames g doc →
        (∀ (d : DirEntry) path x, DocAt doc (path ++ [d.name]) x →
          (env.utf8Name d).bind env.sanitize = some (g d.name)) →
        (entriesOfSlots slots).length ≤ fuel → Tidy w.fs → w.fs.has dir = false →
        w.fs.dir dir.dropLast = true →
        (PartOfImage g doc dir w.fs (exportFile env fuel dir w).1.fs ∧
          ∀ k, PartOfImage g doc dir w.fs (exportFile (killedAt env k) fuel dir w).1.fs) ∧
        ((exportFileLog env fuel dir w).1.2 = .ok () → NoUnable (exportFileLog env fuel dir w).2 →
          ImageAt g doc dir w.fs (exportFile env fuel dir w).1.fs ∧
          ∀ n, w.tick ≤ n → n < (exportFile env fuel dir w).1.tick → env.fault n = false) ∧
        ((∀ n, env.fault n = false) →
          ∀ path d, DocAt doc path d → (exportFile env fuel dir w).1.fs.dir (dir ++ path.map g) = true ∧
            (path ≠ [] → ∃ it, NamedFrom t (fun d => d.name) ⟨none, t.root⟩ path it ∧
              ((it.entry.size = 0 ∨ ∀ cur size : Nat, size ≤ 2 ^ 63 - 1 →
                  ∃ data, (streamRead f it.entry cur size).1.res = .ok data) →
                (exportFile env fuel dir w).1.fs.file (dir ++ path.map g ++ [dataName]) = some d.data))) := by
  obtain ⟨h1, t, f, c, h2, h3, rfl, hcd, hwf, h4⟩ := damaged_ready hf cmp hcmp hshort hsize st hst hclosed h hdev
    flags hfl hreads
  refine ⟨h1, t, _, h2, h3, ?_⟩
  intro env g fuel dir w e1 e2 hsep hg hname hfuel htidy hno hparent
  have hwf' : WellFormedCtx env.ctx := by
    rw [e2]; exact ⟨hwf.ss, hwf.short, hwf.start, hwf.sat, hwf.ssat⟩
  have hfit : ∀ d, ItemFits c d → ItemFits env.ctx d := by intro d hd; rw [e2]; exact hd
  have hready := h4 { env with ctx := c } g fuel e1 rfl hsep hg hname hfuel
  refine ⟨⟨?_, fun k => ?_⟩, ?_, ?_⟩
  · exact (export_part_of hready hwf' hfit (fun d data hr => readPrefix_damaged hdev hcd (by rw [← e2]; exact hr))
      htidy hno hparent).2.2
  · have hready' := h4 { killedAt env k with ctx := c } g fuel e1 rfl hsep hg hname hfuel
    exact (export_part_of hready' hwf' hfit (fun d data hr => readPrefix_damaged hdev hcd (by rw [← e2]; exact hr))
      htidy hno hparent).2.2
  · intro k1 k2
    have hsame : exportFileLog { env with ctx := c } fuel dir w = exportFileLog env fuel dir w := by
      have := exportFileLog_follows hdev (env := { env with ctx := c }) hcd fuel dir w
      rw [show onto { env with ctx := c } (st.world.dev h) = env by rw [onto, ← e2]] at this
      exact this ⟨⟨_, k1⟩, k2⟩
    have ht := export_told hready htidy hno hparent
    rw [hsame] at ht
    have := ht.2 k1 k2
    have hfa := ht.1.1 ⟨k1, k2⟩
    rw [exportFileLog_fst] at this hfa
    exact ⟨this, hfa⟩
  · intro hfault
    subst e1
    have := export_rescue hready hfault hwf' hfit (fun _ => True) (fun d sizes pieces _ hr =>
      readAll_damaged hdev hcd d sizes 0 pieces (by rw [← e2]; exact hr)) htidy hno hparent
    unfold ReadsAll at this
    simp only [true_implies] at this
    rw [← e2]
    exact this

/-! ### A case that meets the hypotheses -/

theorem twoSectors_docAt {path : List Bytes} {x : Doc} (h : DocAt (.storage twoSectors) path x) :
    (path = [] ∧ x = .storage twoSectors) ∨ (path = [[65, 0]] ∧ x = .stream (List.replicate 1024 7)) := by
  induction h with
  | here => exact .inl ⟨rfl, rfl⟩
  | sub _ hm ih =>
    rcases ih with ⟨rfl, h⟩ | ⟨_, h⟩
    · cases h
      unfold twoSectors at hm
      rw [List.mem_singleton] at hm
      cases hm
      exact .inr ⟨rfl, rfl⟩
    · cases h

theorem twoSectors_names : GoodNames fileNameOf (.storage twoSectors) := by
  refine ⟨?_, ?_⟩
  · intro path n x h
    rcases twoSectors_docAt h with ⟨h, _⟩ | ⟨h, _⟩
    · simp at h
    · have h' : path ++ [n] = [] ++ [[65, 0]] := h
      obtain ⟨-, h2⟩ := List.append_inj' h' rfl
      cases h2
      decide
  · intro path kids h
    rcases twoSectors_docAt h with ⟨_, h⟩ | ⟨_, h⟩
    · cases h
      decide +kernel
    · cases h

/-- The document of which half of the only stream cannot be read, exported to a file system without failures: its
  directory is there, and what is in it is a part of the image (C112_export_damaged_partial). -/
example : ∃ t f,
    (openHandle cmpNone (.user 1) 1 {} badState).2.file.tree = some t ∧
    PartOfImage fileNameOf (.storage twoSectors) exportPath emptyDisk.fs
      (exportFile (smallEnv t f) 6 exportPath emptyDisk).1.fs ∧
    (exportFile (smallEnv t f) 6 exportPath emptyDisk).1.fs.dir (exportPath ++ [[65]]) = true := by
  have hd : badState.world.dev (.user 1) = badHalf := rfl
  have hf : badState.file = OleFile.new := rfl
  have hst := twoSectors_storable .little
  have hnames := slotsOfFile_names hst
  obtain ⟨_, t, f, h1, h2, h3⟩ := C112_export_damaged_partial (encodeFile_held hst) cmpNone (by
    intro n _
    exact ⟨fun _ => by simp [cmpNone], fun _ => by simp [cmpNone]⟩) (by decide) (by decide +kernel) badState
    ⟨badState, [], ⟨rfl, rfl⟩, rfl⟩ rfl (.user 1) (by rw [hd]; exact badHalf_damaged) 1 rfl
    (by rw [hd, hf]; exact badHalf_reads)
  obtain ⟨h4, _, h5⟩ := h3 (smallEnv t f) fileNameOf 6 exportPath emptyDisk rfl rfl (smallEnv_noSep t f)
    twoSectors_names (by
      intro d path x hx
      have hn : d.name = [65, 0] := by
        rcases twoSectors_docAt hx with ⟨h, _⟩ | ⟨h, _⟩
        · simp at h
        · have h' : path ++ [d.name] = [] ++ [[65, 0]] := h
          obtain ⟨-, h2⟩ := List.append_inj' h' rfl
          exact List.cons.inj h2 |>.1
      show (some (fileNameOf d.name)).bind _ = _
      rw [hn]
      rfl) (by decide +kernel) emptyDisk_tidy (by decide) (by decide)
  refine ⟨t, f, h1, h4.1, ?_⟩
  have := (h5 (fun _ => rfl) [[65, 0]] (.stream (List.replicate 1024 7)) (.sub .here (List.mem_singleton.2 rfl))).1
  exact this

/-! ### Files that are opened though a read failed -/

/-- The export of the file without its sector table that `C111_document_violated` opens. -/
def cutExport : Option (Logged Unit) :=
  let s := (openHandle cmpNone (.user 1) 1 {} (cutState .little 2048)).2
  match s.file.tree, s.file.ctx (s.world.dev (.user 1)) with
  | some t, some f => some (exportFileLog (smallEnv t f) 6 exportPath emptyDisk)
  | _, _ => none

theorem cutExport_wrong : (match cutExport with
    | some r => r.1.2 == .ok () &&
      r.2.all (fun m => match m with | .unable _ _ => false | _ => true) &&
      (match r.1.1.fs.file (exportPath ++ [[65]] ++ [dataName]) with
        | some d => !d.isPrefixOf (List.replicate 1024 7)
        | none => false)
    | none => false) = true := by
  decide +kernel

/-- C112, violated for files that are opened though a read failed: a document with one stream, in a file that is
  cut before its sector table, is exported with success and without a message of a failure, and the data file of
  the stream has other data. -/
theorem C112_export_damaged_violated :
    (openHandle cmpNone (.user 1) 1 {} (cutState .little 2048)).1 = .ok () ∧
    ∃ t f, (openHandle cmpNone (.user 1) 1 {} (cutState .little 2048)).2.file.tree = some t ∧
      (openHandle cmpNone (.user 1) 1 {} (cutState .little 2048)).2.file.ctx
        ((openHandle cmpNone (.user 1) 1 {} (cutState .little 2048)).2.world.dev (.user 1)) = some f ∧
      (exportFileLog (smallEnv t f) 6 exportPath emptyDisk).1.2 = .ok () ∧
      NoUnable (exportFileLog (smallEnv t f) 6 exportPath emptyDisk).2 ∧
      ¬ PartOfImage fileNameOf (.storage twoSectors) exportPath emptyDisk.fs
        (exportFile (smallEnv t f) 6 exportPath emptyDisk).1.fs := by
  obtain ⟨h1, t, f, _, h2, h3, _⟩ := C111_document_violated .little
  refine ⟨h1, t, f, h2, h3, ?_⟩
  have hx := cutExport_wrong
  unfold cutExport at hx
  dsimp only at hx
  rw [h2, h3] at hx
  dsimp only at hx
  rw [← exportFileLog_fst]
  generalize exportFileLog (smallEnv t f) 6 exportPath emptyDisk = r at hx ⊢
  rw [Bool.and_eq_true, Bool.and_eq_true] at hx
  obtain ⟨⟨k1, k2⟩, k3⟩ := hx
  refine ⟨by simpa using k1, ?_, ?_⟩
  · intro i n hm
    have := List.all_eq_true.1 k2 _ hm
    cases this
  · intro hp
    cases hq : r.1.1.fs.file (exportPath ++ [[65]] ++ [dataName]) with
    | none => rw [hq] at k3; cases k3
    | some data =>
      rw [hq] at k3
      obtain ⟨path, d, j1, j2, j3, j4⟩ := hp.files _ _ hq rfl
      rcases twoSectors_docAt j1 with ⟨h, _⟩ | ⟨_, rfl⟩
      · exact absurd h j2
      · have j4' : data <+: List.replicate 1024 7 := j4
        rw [← List.isPrefixOf_iff_prefix] at j4'
        dsimp only at k3
        rw [j4'] at k3
        cases k3

end Olecf.Props
