import Verif.Props.ExportDoc

/-
  C108: what an export that fails or is killed leaves behind.
-/

namespace Olecf.Props
open Olecf.Spec

/-! ### Parts of the data of an item -/

/-- The data is an initial segment of what a sequence of reads of an item returns. -/
def ReadPrefix (f : FileCtx) (d : DirEntry) (data : Bytes) : Prop :=
  ∃ sizes pieces, sizes.sum ≤ d.size ∧ (d.size = 0 → sizes = []) ∧
    readAll f d 0 sizes = some pieces ∧ data <+: pieces.flatten

theorem copyLoop_prefix (env : ExportEnv) (d : DirEntry) (p : Path) : ∀ (fuel remaining : Nat)
    (cur : Int) (w : Disk) (c : Bytes), w.fs.file p = some c →
    ∃ sizes pieces x, sizes.sum ≤ remaining ∧ (remaining = 0 → sizes = []) ∧
      readAll env.ctx d cur sizes = some pieces ∧ x <+: pieces.flatten ∧
      (copyLoop env d p fuel remaining cur w).1.fs.file p = some (c ++ x) := by
  intro fuel
  induction fuel with
  | zero =>
    intro remaining cur w c hc
    refine ⟨[], [], [], Nat.zero_le _, fun _ => rfl, rfl, List.prefix_refl _, ?_⟩
    unfold copyLoop
    split <;> simpa using hc
  | succ fuel ih =>
    intro remaining cur w c hc
    have hnone : ∃ sizes pieces x, sizes.sum ≤ remaining ∧ (remaining = 0 → sizes = []) ∧
        readAll env.ctx d cur sizes = some pieces ∧ x <+: pieces.flatten ∧
        w.fs.file p = some (c ++ x) :=
      ⟨[], [], [], Nat.zero_le _, fun _ => rfl, rfl, List.prefix_refl _, by simpa using hc⟩
    unfold copyLoop
    split
    · exact hnone
    · rename_i h0
      simp only []
      generalize hn : (if exportBufferSize > remaining then remaining else exportBufferSize) = n
      have hle : n ≤ remaining := by rw [← hn]; split <;> omega
      cases hr : (streamRead env.ctx d cur n).1.res with
      | err => exact hnone
      | ub => exact hnone
      | hang => exact hnone
      | ok data =>
        simp only [diskThen]
        split
        · exact hnone
        · unfold fsAppend
          cases env.fault w.tick with
          | true =>
            refine ⟨[n], [data], data.take (env.cut w.tick), by simpa using hle, fun h => absurd h h0, ?_,
              ?_, ?_⟩
            · rw [readAll, hr]; rfl
            · simpa using List.take_prefix _ _
            · simp [Fs.setFile, hc]
          | false =>
            obtain ⟨sizes, pieces, x, k1, k2, k3, k4, k5⟩ := ih (remaining - n)
              (streamRead env.ctx d cur n).2
              ⟨w.fs.setFile p ((w.fs.file p).map (· ++ data)), w.tick + 1⟩ (c ++ data)
              (by simp [Fs.setFile, hc])
            refine ⟨n :: sizes, data :: pieces, data ++ x, ?_, fun h => absurd h h0, ?_, ?_, ?_⟩
            · rw [List.sum_cons]; omega
            · rw [readAll, hr]
              simp only []
              rw [k3]; rfl
            · rw [List.flatten_cons]
              exact (List.prefix_append_right_inj _).2 k4
            · rw [List.append_assoc] at k5
              simpa using k5

/-- The data file of an item, whatever fails. -/
theorem writeItemData_part {env : ExportEnv} {d : DirEntry} {dir : Path} (w : Disk)
    (hno : w.fs.has (dir ++ [dataName]) = false) :
    (writeItemData env d dir w).1.fs.dir = w.fs.dir ∧
    ∀ q data, (writeItemData env d dir w).1.fs.file q = some data → w.fs.file q = none →
      q = dir ++ [dataName] ∧ ReadPrefix env.ctx d data := by
  unfold writeItemData
  rw [resolve_plain dataName_plain]
  generalize dir ++ [dataName] = p at hno
  have hsame : ∀ fs : Fs, fs = w.fs → fs.dir = w.fs.dir ∧
      ∀ q data, fs.file q = some data → w.fs.file q = none → q = p ∧ ReadPrefix env.ctx d data := by
    rintro fs rfl
    exact ⟨rfl, fun q data h1 h2 => by rw [h2] at h1; cases h1⟩
  refine diskThen_inv (P := fun x => x.fs.dir = w.fs.dir ∧
    ∀ q data, x.fs.file q = some data → w.fs.file q = none → q = p ∧ ReadPrefix env.ctx d data)
    (hsame _ (fsExists_fs env w p)) ?_
  intro w1 found h1
  obtain ⟨e1, rfl⟩ := fsExists_ok h1
  rw [hno]
  simp only [Bool.false_eq_true, if_false]
  have hc : fsCreate env w1 p = (⟨w1.fs, w1.tick + 1⟩, .err) ∨
      fsCreate env w1 p = (⟨w1.fs.setFile p (some []), w1.tick + 1⟩, .ok ()) := by
    unfold fsCreate
    rcases fsOp_cases env w1 fun fs =>
        if fs.dir p ∨ p = [] ∨ ¬ fs.dir p.dropLast then none else some ((), fs.setFile p (some []))
      with h | ⟨a, fs, _, h1, h2⟩
    · exact Or.inl h
    · refine Or.inr ?_
      rw [h2]
      split at h1
      · cases h1
      · simp only [Option.some.injEq, Prod.mk.injEq] at h1
        rw [← h1.2]
  rcases hc with hc | hc
  · rw [hc]
    exact hsame _ e1
  · rw [hc]
    simp only [diskThen]
    generalize hw2 : Disk.mk (w1.fs.setFile p (some [])) (w1.tick + 1) = w2
    have hf2 : w2.fs.file p = some [] := by rw [← hw2]; simp [Fs.setFile]
    have hloop : ∀ fs : Fs, fs = (copyLoop env d p d.size d.size 0 w2).1.fs → fs.dir = w.fs.dir ∧
        ∀ q data, fs.file q = some data → w.fs.file q = none → q = p ∧ ReadPrefix env.ctx d data := by
      rintro fs rfl
      have hS := copyLoop_same env d p d.size d.size 0 w2
      refine ⟨by rw [hS.dir, ← hw2, ← e1]; rfl, ?_⟩
      intro q data hq hn
      by_cases hqp : q = p
      · subst hqp
        refine ⟨rfl, ?_⟩
        obtain ⟨sizes, pieces, x, k1, k2, k3, k4, k5⟩ :=
          copyLoop_prefix env d q d.size d.size 0 w2 [] hf2
        rw [hq] at k5
        cases k5
        exact ⟨sizes, pieces, k1, k2, k3, k4⟩
      · rw [hS.file q hqp, ← hw2] at hq
        simp only [Fs.setFile, if_neg hqp] at hq
        rw [e1, hn] at hq
        cases hq
    cases hr : copyLoop env d p d.size d.size 0 w2 with
    | mk w3 r =>
      rw [hr] at hloop
      cases r with
      | err => exact hloop _ rfl
      | ub => exact hloop _ rfl
      | hang => exact hloop _ rfl
      | ok _ =>
        simp only []
        have hcl := fsClose_fs env w3
        cases hr4 : fsClose env w3 with
        | mk w4 r =>
          rw [hr4] at hcl
          cases r <;> exact hloop _ hcl

/-- The directory of an item, whatever fails: nothing changed, or the directory was made. -/
theorem makeItemDirectory_part {env : ExportEnv} {d : DirEntry} {name : Bytes}
    (hname : (env.utf8Name d).bind env.sanitize = some name) (hp : PlainName name) (index : Nat)
    {dir : Path} {w : Disk} (hno : w.fs.has (dir ++ [name]) = false) :
    (∃ tick, makeItemDirectory env d index dir w = (⟨w.fs, tick⟩, .err)) ∨
    (∃ tick, makeItemDirectory env d index dir w =
      (⟨w.fs.addDir (dir ++ [name]), tick⟩, .ok (dir ++ [name]))) := by
  unfold makeItemDirectory
  cases hu : env.utf8Name d with
  | none => rw [hu] at hname; cases hname
  | some raw =>
    rw [hu, Option.bind_some] at hname
    simp only [hname]
    rw [resolve_plain hp]
    unfold fsExists
    rcases fsOp_cases env w fun fs => some (fs.has (dir ++ [name]), fs) with h | ⟨a, fs, _, h1, h2⟩
    · rw [h]; exact Or.inl ⟨_, rfl⟩
    · rw [h2]
      simp only [Option.some.injEq, Prod.mk.injEq] at h1
      obtain ⟨rfl, rfl⟩ := h1
      rw [hno]
      simp only [diskThen, pureStep, Bool.false_eq_true, if_false]
      rw [resolve_plain hp]
      unfold fsMkdir
      rcases fsOp_cases env ⟨w.fs, w.tick + 1⟩ fun fs =>
          if fs.has (dir ++ [name]) ∨ dir ++ [name] = [] ∨ ¬ fs.dir (dir ++ [name]).dropLast then none
          else some ((), fs.addDir (dir ++ [name])) with h | ⟨a, fs, _, h1, h2⟩
      · rw [h]; exact Or.inl ⟨_, rfl⟩
      · rw [h2]
        split at h1
        · cases h1
        · simp only [Option.some.injEq, Prod.mk.injEq] at h1
          rw [← h1.2]
          exact Or.inr ⟨_, rfl⟩

/-! ### The export of the items, whatever fails -/

/-- The part of `Exportable` that is about names. -/
structure Nameable (env : ExportEnv) (nameOf : DirEntry → Bytes) (start : Item) : Prop where
  named : ∀ names it, NamedFrom env.tree nameOf start names it → names ≠ [] →
    (env.utf8Name it.entry).bind env.sanitize = some (nameOf it.entry)
  plain : ∀ names it, NamedFrom env.tree nameOf start names it → names ≠ [] →
    PlainName (nameOf it.entry) ∧ nameOf it.entry ≠ dataName
  distinct : ∀ names it, NamedFrom env.tree nameOf start names it → ∀ (i j : Nat) a b,
    getSubItem env.tree it i = .ok a → getSubItem env.tree it j = .ok b →
    nameOf a.entry = nameOf b.entry → i = j

/-- Everything in `fs'` that is not in `fs` is a directory of an item from `it` on (or below it), or a data
  file with an initial segment of its data. -/
def MadeFor (env : ExportEnv) (nameOf : DirEntry → Bytes) (below : Bool) (fs fs' : Fs) (dir : Path)
    (it : Item) : Prop :=
  (∀ q, fs'.dir q = true → fs.dir q = false → ∃ names x, NamedFrom env.tree nameOf it names x ∧
    (below = true → names ≠ []) ∧ q = dir ++ names) ∧
  ∀ q data, fs'.file q = some data → fs.file q = none → ∃ names x,
    NamedFrom env.tree nameOf it names x ∧ (below = true → names ≠ []) ∧
    q = dir ++ names ++ [dataName] ∧ ReadPrefix env.ctx x.entry data

theorem MadeFor.same {env : ExportEnv} {nameOf : DirEntry → Bytes} {below : Bool} (fs : Fs) (dir : Path)
    (it : Item) : MadeFor env nameOf below fs fs dir it :=
  ⟨fun _ h1 h2 => absurd (h1.symm.trans h2) (by decide), fun _ _ h1 h2 => nomatch h1.symm.trans h2⟩

theorem MadeFor.trans {env : ExportEnv} {nameOf : DirEntry → Bytes} {below : Bool} {a b c : Fs}
    {dir p : Path} {it : Item} (h1 : MadeFor env nameOf below a b dir it) (hg : GrownAt p b c)
    (h2 : MadeFor env nameOf below b c dir it) : MadeFor env nameOf below a c dir it := by
  refine ⟨?_, ?_⟩
  · intro q hc ha
    cases hb : b.dir q with
    | true => exact h1.1 q hb ha
    | false => exact h2.1 q hc hb
  · intro q data hc ha
    cases hb : b.file q with
    | none => exact h2.2 q data hc hb
    | some x =>
      have := hg.files q x hb
      rw [hc] at this
      cases this
      exact h1.2 q _ hb ha

/-- From a sub item to its item. -/
theorem MadeFor.up {env : ExportEnv} {nameOf : DirEntry → Bytes} {a b : Fs} {dir : Path} {it s : Item}
    {i : Nat} (hi : getSubItem env.tree it i = .ok s)
    (h : MadeFor env nameOf false a b (dir ++ [nameOf s.entry]) s) : MadeFor env nameOf true a b dir it := by
  refine ⟨?_, ?_⟩
  · intro q h1 h2
    obtain ⟨ns, x, k1, _, k2⟩ := h.1 q h1 h2
    exact ⟨[nameOf s.entry] ++ ns, x, NamedFrom.trans (NamedFrom.sub .here hi) k1, fun _ => by simp,
      by simpa only [List.append_assoc] using k2⟩
  · intro q data h1 h2
    obtain ⟨ns, x, k1, _, k2, k3⟩ := h.2 q data h1 h2
    exact ⟨[nameOf s.entry] ++ ns, x, NamedFrom.trans (NamedFrom.sub .here hi) k1, fun _ => by simp,
      by simpa only [List.append_assoc] using k2, k3⟩

theorem MadeFor.weaken {env : ExportEnv} {nameOf : DirEntry → Bytes} {a b : Fs} {dir : Path} {it : Item}
    (h : MadeFor env nameOf true a b dir it) : MadeFor env nameOf false a b dir it := by
  refine ⟨fun q h1 h2 => ?_, fun q data h1 h2 => ?_⟩
  · obtain ⟨ns, x, k1, _, k2⟩ := h.1 q h1 h2
    exact ⟨ns, x, k1, nofun, k2⟩
  · obtain ⟨ns, x, k1, _, k2⟩ := h.2 q data h1 h2
    exact ⟨ns, x, k1, nofun, k2⟩

theorem exportLoop_part {env : ExportEnv} {nameOf : DirEntry → Bytes} {start : Item}
    (hx : Nameable env nameOf start) {f : Item → Nat → Disk → Disk × Res Unit} {dir : Path}
    {names : List Bytes} {it : Item} (hnm : NamedFrom env.tree nameOf start names it)
    (hone : ∀ (i : Nat) s, getSubItem env.tree it i = .ok s → ∀ w : Disk, Tidy w.fs →
      w.fs.dir dir = true → w.fs.has (dir ++ [nameOf s.entry]) = false →
      (f s i w).2.Defined ∧ Tidy (f s i w).1.fs ∧
        GrownAt (dir ++ [nameOf s.entry]) w.fs (f s i w).1.fs ∧
        MadeFor env nameOf false w.fs (f s i w).1.fs (dir ++ [nameOf s.entry]) s) :
    ∀ (k index : Nat) (w : Disk), index + k = numberOfSubItems env.tree it → Tidy w.fs →
      w.fs.dir dir = true →
      (∀ (i : Nat) s, getSubItem env.tree it i = .ok s → index ≤ i →
        w.fs.has (dir ++ [nameOf s.entry]) = false) →
      (exportLoop env f it k index w).2 = .ok () ∧ Tidy (exportLoop env f it k index w).1.fs ∧
        GrownAt dir w.fs (exportLoop env f it k index w).1.fs ∧
        MadeFor env nameOf true w.fs (exportLoop env f it k index w).1.fs dir it := by
  intro k
  induction k with
  | zero =>
    intro index w hk ht hdir hno
    exact ⟨rfl, ht, .refl _ _, .same _ _ _⟩
  | succ k ih =>
    intro index w hk ht hdir hno
    have hlt : index < (env.tree.kids it.node).length := by unfold numberOfSubItems at hk; omega
    have hsub : getSubItem env.tree it index = .ok (.ofEntry (env.tree.kids it.node)[index]) :=
      getSubItem_ok.2 ⟨_, List.getElem?_eq_getElem hlt, rfl⟩
    generalize Item.ofEntry (env.tree.kids it.node)[index] = s at hsub
    obtain ⟨h1, h2, h3, h4⟩ := hone index s hsub w ht hdir (hno index s hsub (Nat.le_refl _))
    unfold exportLoop pureStep
    rw [hsub]
    simp only [diskThen]
    cases hr : f s index w with
    | mk w1 r =>
      rw [hr] at h1 h2 h3 h4
      simp only [] at h2 h3 h4
      obtain ⟨k1, k2, k3, k4⟩ := ih (index + 1) w1 (by omega) h2 (h3.dirs _ hdir) (by
        intro i x hi hle
        cases hh : w1.fs.has (dir ++ [nameOf x.entry]) with
        | false => rfl
        | true =>
          have := h3.fresh _ hh (hno i x hi (by omega))
          have := List.IsPrefix.eq_of_length this (by simp)
          simp at this
          have := hx.distinct names it hnm index i s x hsub hi this
          omega)
      have hall := And.intro k1 (And.intro k2 (And.intro ((h3.mono (List.prefix_append _ _)).trans k3)
        ((MadeFor.up hsub h4).trans k3 k4)))
      cases r with
      | ok _ => exact hall
      | err => exact hall
      | ub => exact absurd h1 id
      | hang => exact absurd h1 id

theorem exportItem_part_step {env : ExportEnv} (hctx : WellFormedCtx env.ctx)
    {nameOf : DirEntry → Bytes} {start : Item} (hx : Nameable env nameOf start)
    (hfit : ∀ names it, NamedFrom env.tree nameOf start names it → ItemFits env.ctx it.entry)
    {fuel : Nat} {dir : Path} {names : List Bytes} {it : Item} {index : Nat} {w : Disk}
    (hsubs : ∀ (i : Nat) s, getSubItem env.tree it i = .ok s → ∀ w : Disk, Tidy w.fs →
      w.fs.dir (dir ++ [nameOf it.entry]) = true →
      w.fs.has (dir ++ [nameOf it.entry] ++ [nameOf s.entry]) = false →
      (exportItem env fuel (dir ++ [nameOf it.entry]) s i w).2.Defined ∧
        Tidy (exportItem env fuel (dir ++ [nameOf it.entry]) s i w).1.fs ∧
        GrownAt (dir ++ [nameOf it.entry] ++ [nameOf s.entry]) w.fs
          (exportItem env fuel (dir ++ [nameOf it.entry]) s i w).1.fs ∧
        MadeFor env nameOf false w.fs (exportItem env fuel (dir ++ [nameOf it.entry]) s i w).1.fs
          (dir ++ [nameOf it.entry] ++ [nameOf s.entry]) s)
    (hnm : NamedFrom env.tree nameOf start names it) (hne : names ≠ []) (ht : Tidy w.fs)
    (hdir : w.fs.dir dir = true) (hno : w.fs.has (dir ++ [nameOf it.entry]) = false) :
    (exportItem env (fuel + 1) dir it index w).2.Defined ∧
      Tidy (exportItem env (fuel + 1) dir it index w).1.fs ∧
      GrownAt (dir ++ [nameOf it.entry]) w.fs (exportItem env (fuel + 1) dir it index w).1.fs ∧
      MadeFor env nameOf false w.fs (exportItem env (fuel + 1) dir it index w).1.fs
        (dir ++ [nameOf it.entry]) it := by
  obtain ⟨hp, _⟩ := hx.plain names it hnm hne
  unfold exportItem
  rcases makeItemDirectory_part (hx.named names it hnm hne) hp index hno with ⟨tick, h⟩ | ⟨tick, h⟩
  · rw [h]
    exact ⟨trivial, ht, .refl _ _, .same _ _ _⟩
  · rw [h]
    simp only [diskThen]
    obtain ⟨hg1, hg2⟩ := mkdir_tidy ht hno (by rw [List.dropLast_concat]; exact hdir)
    have hpd := addDir_dir w.fs (dir ++ [nameOf it.entry])
    have hempty : ∀ n, (w.fs.addDir (dir ++ [nameOf it.entry])).has
        (dir ++ [nameOf it.entry] ++ [n]) = false := fun n => addDir_empty ht hno n
    have hm1 : MadeFor env nameOf false w.fs (w.fs.addDir (dir ++ [nameOf it.entry]))
        (dir ++ [nameOf it.entry]) it := by
      refine ⟨fun q h1 h2 => ?_, fun q data h1 h2 => nomatch h1.symm.trans h2⟩
      simp only [Fs.addDir] at h1
      split at h1
      · rename_i e
        exact ⟨[], it, .here, nofun, by rw [List.append_nil]; exact e⟩
      · rw [h1] at h2; cases h2
    have hdef := writeItemData_defined hctx (hfit names it hnm) (dir ++ [nameOf it.entry])
      ⟨w.fs.addDir (dir ++ [nameOf it.entry]), tick⟩
    have hgr := writeItemData_grown (env := env) (d := it.entry)
      (w := ⟨w.fs.addDir (dir ++ [nameOf it.entry]), tick⟩) hg1 hpd
    have hpart := writeItemData_part (env := env) (d := it.entry)
      ⟨w.fs.addDir (dir ++ [nameOf it.entry]), tick⟩ (hempty dataName)
    generalize hw1 : Disk.mk (w.fs.addDir (dir ++ [nameOf it.entry])) tick = w1 at hdef hgr hpart ⊢
    have e1 : w1.fs = w.fs.addDir (dir ++ [nameOf it.entry]) := by rw [← hw1]
    rw [← e1] at hg2 hm1 hempty hpd
    cases hr : writeItemData env it.entry (dir ++ [nameOf it.entry]) w1 with
    | mk w2 r =>
      rw [hr] at hdef hgr hpart
      simp only [] at hpart
      have hgr1 : Tidy w2.fs ∧ GrownAt (dir ++ [nameOf it.entry] ++ [dataName]) w1.fs w2.fs := hgr.1
      have hgr2 := hgr1.2.mono (List.prefix_append (dir ++ [nameOf it.entry]) [dataName])
      have hm2 : MadeFor env nameOf false w1.fs w2.fs (dir ++ [nameOf it.entry]) it := by
        refine ⟨fun q h1 h2 => ?_, fun q data h1 h2 => ?_⟩
        · rw [hpart.1, h2] at h1; cases h1
        · obtain ⟨k1, k2⟩ := hpart.2 q data h1 h2
          exact ⟨[], it, .here, nofun, by rw [List.append_nil]; exact k1, k2⟩
      have hbase := And.intro hgr1.1 (And.intro (hg2.trans hgr2) (hm1.trans hgr2 hm2))
      cases r with
      | ub => exact absurd hdef id
      | hang => exact absurd hdef id
      | err => exact ⟨trivial, hbase⟩
      | ok b =>
        cases b with
        | false => exact ⟨trivial, hbase⟩
        | true =>
          simp only [if_true]
          obtain ⟨k1, k2, k3, k4⟩ := exportLoop_part hx
            (f := exportItem env fuel (dir ++ [nameOf it.entry])) hnm hsubs
            (numberOfSubItems env.tree it) 0 w2 (by omega) hgr1.1 (hgr1.2.dirs _ hpd) (by
              intro i s hi _
              cases hh : w2.fs.has (dir ++ [nameOf it.entry] ++ [nameOf s.entry]) with
              | false => rfl
              | true =>
                have := hgr1.2.fresh _ hh (hempty _)
                have := List.IsPrefix.eq_of_length this (by simp)
                simp at this
                exact absurd this.symm (hx.plain _ s (.sub hnm hi) (by simp)).2)
          exact ⟨by rw [k1]; trivial, k2, hbase.2.1.trans k3, hbase.2.2.trans k3 k4.weaken⟩

theorem exportItem_part {env : ExportEnv} (hctx : WellFormedCtx env.ctx)
    {nameOf : DirEntry → Bytes} {start : Item} (hx : Nameable env nameOf start)
    (hfit : ∀ names it, NamedFrom env.tree nameOf start names it → ItemFits env.ctx it.entry) :
    ∀ (n fuel : Nat) (dir : Path) (names : List Bytes) (it : Item) (index : Nat) (w : Disk),
      n < fuel → NestedAtMost env.tree n it → NamedFrom env.tree nameOf start names it →
      names ≠ [] → Tidy w.fs → w.fs.dir dir = true →
      w.fs.has (dir ++ [nameOf it.entry]) = false →
      (exportItem env fuel dir it index w).2.Defined ∧ Tidy (exportItem env fuel dir it index w).1.fs ∧
        GrownAt (dir ++ [nameOf it.entry]) w.fs (exportItem env fuel dir it index w).1.fs ∧
        MadeFor env nameOf false w.fs (exportItem env fuel dir it index w).1.fs (dir ++ [nameOf it.entry]) it := by
  intro n
  induction n with
  | zero =>
    intro fuel dir names it index w hlt hn hnm hne ht hdir hno
    cases fuel with
    | zero => omega
    | succ fuel =>
      refine exportItem_part_step hctx hx hfit ?_ hnm hne ht hdir hno
      intro i s hi
      exfalso
      obtain ⟨e, he, _⟩ := getSubItem_ok.1 hi
      have := (List.getElem?_eq_some_iff.1 he).1
      have hn : numberOfSubItems env.tree it = 0 := hn
      unfold numberOfSubItems at hn
      omega
  | succ n ih =>
    intro fuel dir names it index w hlt hn hnm hne ht hdir hno
    cases fuel with
    | zero => omega
    | succ fuel =>
      refine exportItem_part_step hctx hx hfit ?_ hnm hne ht hdir hno
      intro i s hi w ht hd hno
      exact ih fuel _ _ s i w (by omega) (hn i s hi) (.sub hnm hi) (by simp) ht hd hno

/-- Data read from the start of an item that shows a part of the document. -/
theorem readPrefix_data {env : ExportEnv} {g : Bytes → Bytes} {doc : Doc} {fuel : Nat}
    (hready : ExportReady env g doc fuel) {names : List Bytes} {it : Item} {d : Doc} {data : Bytes}
    (hnm : NamedFrom env.tree (fun d => g d.name) ⟨none, env.tree.root⟩ names it) (hne : names ≠ [])
    (hsh : Shows env.tree env.ctx it d) (h : ReadPrefix env.ctx it.entry data) : data <+: d.data := by
  have hi := hready.items
  obtain ⟨sizes, pieces, h1, h2, h3, h4⟩ := h
  refine h4.trans ?_
  by_cases hs : sizes = []
  · subst hs
    cases h3
    exact List.nil_prefix
  · have hty : it.entry.type = 2 := by
      by_contra hty
      exact hs (h2 (hi.zero hnm hne hty))
    obtain ⟨p, _, hp⟩ := export_named_item hnm
    have hfit := hi.fits p it hp
    obtain ⟨content, hdev⟩ := hready.dev
    have hlt := hfit.1.size
    have hw := C27_pieces_equal_whole hready.ctx ⟨hfit.1, hty, hfit.2⟩ hdev sizes 0 pieces hs
      (by omega) h3
    cases hsh with
    | @stream _ dat _ _ hsz hr =>
      have := hr 0 sizes.sum (by omega)
      rw [List.drop_zero] at this
      have hw' := hw.symm.trans this
      injection hw' with hw'
      rw [hw']
      exact List.take_prefix _ _
    | storage h1 => rcases h1 with h | h <;> rw [h] at hty <;> cases hty

/-- An export in which any operations fail, of a file whose reads that succeed are those of a file that is ready
  for an export. -/
theorem export_part_of {env : ExportEnv} {c : FileCtx} {g : Bytes → Bytes} {doc : Doc} {fuel : Nat}
    (hready : ExportReady { env with ctx := c } g doc fuel) (hwf : WellFormedCtx env.ctx)
    (hfit : ∀ d, ItemFits c d → ItemFits env.ctx d)
    (hread : ∀ d data, ReadPrefix env.ctx d data → ReadPrefix c d data) {dir : Path} {w : Disk} (ht : Tidy w.fs)
    (hno : w.fs.has dir = false) (hparent : w.fs.dir dir.dropLast = true) :
    (exportFile env fuel dir w).2 = (if env.fault w.tick then .err else .ok ()) ∧
    Tidy (exportFile env fuel dir w).1.fs ∧
    PartOfImage g doc dir w.fs (exportFile env fuel dir w).1.fs := by
  have hi := hready.items
  have hn : Nameable env (fun d => g d.name) ⟨none, env.tree.root⟩ :=
    ⟨hi.exportable.named, hi.exportable.plain, hi.exportable.distinct⟩
  obtain ⟨list, cmp, m, hnd, htree, hfits, hfuel⟩ := hready.tree
  have hne : dir ≠ [] := by
    rintro rfl
    rw [has_of_dir ht.root] at hno; cases hno
  have htidy := (exportFile_tidy (env := env) hready.sep fuel dir w ht).1
  have hin := C58_export_stays_inside (env := env) hready.sep fuel dir w ht
  cases hf : env.fault w.tick with
  | true =>
    have : exportFile env fuel dir w = (⟨w.fs, w.tick + 1⟩, .err) := by
      unfold exportFile fsMkdir fsOp
      rw [hf]; rfl
    rw [this]
    refine ⟨rfl, ht, ?_, ?_, .refl _ _⟩
    · intro _ h1 h2
      exact absurd (h1.symm.trans h2) (by decide)
    · intro _ _ h1 h2
      exact nomatch h1.symm.trans h2
  | false =>
    have hmk : fsMkdir env w dir = (⟨w.fs.addDir dir, w.tick + 1⟩, .ok ()) := by
      unfold fsMkdir
      refine fsOp_intro hf ?_
      rw [if_neg (by simp [hno, hne, hparent])]
    have hrun : exportFile env fuel dir w =
        exportLoop env (exportItem env fuel dir) ⟨none, env.tree.root⟩
          (numberOfSubItems env.tree ⟨none, env.tree.root⟩) 0 ⟨w.fs.addDir dir, w.tick + 1⟩ := by
      unfold exportFile
      rw [hmk]; rfl
    obtain ⟨hg1, hg2⟩ := mkdir_tidy ht hno hparent
    obtain ⟨k1, _, _, k4⟩ := exportLoop_part hn (f := exportItem env fuel dir) (dir := dir)
      NamedFrom.here
      (fun i s hsub w ht hd hno =>
        exportItem_part hwf hn
          (fun names it h => hfit _ (hi.fits _ it (export_named_item h).choose_spec.2)) (list.length - 2) fuel dir _ s i w
          (by
            have hp : itemAt env.tree [i] = some s :=
              (itemFrom_snoc _ [] _ i _).2 ⟨_, rfl, hsub⟩
            have := depth_lt hnd htree hp
            simp at this
            omega)
          (by
            have hp : itemAt env.tree [i] = some s :=
              (itemFrom_snoc _ [] _ i _).2 ⟨_, rfl, hsub⟩
            exact nestedAtMost_of_depth hnd htree _ [i] s hp (by simp; omega))
          (.sub .here hsub) (by simp) ht hd hno)
      (numberOfSubItems env.tree ⟨none, env.tree.root⟩) 0 ⟨w.fs.addDir dir, w.tick + 1⟩ (by omega)
      hg1 (addDir_dir _ _) (fun i s _ _ => addDir_empty ht hno _)
    rw [← hrun] at k1 k4
    refine ⟨k1, htidy, ?_, ?_, hin⟩
    · intro q h1 h2
      by_cases hq : (w.fs.addDir dir).dir q = true
      · simp only [Fs.addDir] at hq
        split at hq
        · rename_i e
          exact ⟨[], doc, .here, by simpa using e⟩
        · rw [h2] at hq; cases hq
      · obtain ⟨names, x, j1, _, j2⟩ := k4.1 q h1 (by simpa using hq)
        obtain ⟨path, d, rfl, j3, _, _⟩ := named_docAt hready.shows j1
        exact ⟨path, d, j3, j2⟩
    · intro q data h1 h2
      obtain ⟨names, x, j1, j2, j3, j4⟩ := k4.2 q data h1 h2
      obtain ⟨path, d, rfl, j5, j6, _⟩ := named_docAt hready.shows j1
      exact ⟨path, d, j5, by simpa using j2 rfl, j3, readPrefix_data hready j1 (j2 rfl) j6 (hread _ _ j4)⟩

/-- An export in which any operations fail. -/
theorem export_part {env : ExportEnv} {g : Bytes → Bytes} {doc : Doc} {fuel : Nat}
    (hready : ExportReady env g doc fuel) {dir : Path} {w : Disk} (ht : Tidy w.fs)
    (hno : w.fs.has dir = false) (hparent : w.fs.dir dir.dropLast = true) :
    (exportFile env fuel dir w).2 = (if env.fault w.tick then .err else .ok ()) ∧
    Tidy (exportFile env fuel dir w).1.fs ∧
    PartOfImage g doc dir w.fs (exportFile env fuel dir w).1.fs :=
  export_part_of (c := env.ctx) hready hready.ctx (fun _ h => h) (fun _ _ h => h) ht hno hparent

/-! ### Killed after some number of operations -/

/-- The same export, but for what fails. -/
structure SameExport (env e : ExportEnv) : Prop where
  ctx : e.ctx = env.ctx
  tree : e.tree = env.tree
  utf8Name : e.utf8Name = env.utf8Name
  sanitize : e.sanitize = env.sanitize

theorem killedAt_same (env : ExportEnv) (k : Nat) : SameExport env (killedAt env k) := ⟨rfl, rfl, rfl, rfl⟩

/-- A program that does its operations one after the other. -/
structure Steps (env : ExportEnv) (P : ExportEnv → Disk → Disk × Res α) : Prop where
  mono : ∀ e, SameExport env e → ∀ w, w.tick ≤ (P e w).1.tick
  same : ∀ k w, (P env w).1.tick ≤ k → P (killedAt env k) w = P env w
  reach : ∀ k w, k ≤ (P env w).1.tick → k ≤ (P (killedAt env k) w).1.tick
  dead : ∀ k w, k ≤ w.tick → (P (killedAt env k) w).1.fs = w.fs
  step : ∀ k w, OneOperation (P (killedAt env k) w).1.fs (P (killedAt env (k + 1)) w).1.fs

theorem Steps.congr {env : ExportEnv} {P P' : ExportEnv → Disk → Disk × Res α} (h : Steps env P')
    (he : ∀ e, SameExport env e → ∀ w, P e w = P' e w) : Steps env P := by
  have hk := fun k w => he _ (killedAt_same env k) w
  have h0 := he env ⟨rfl, rfl, rfl, rfl⟩
  refine ⟨?_, ?_, ?_, ?_, ?_⟩
  · intro e hs w
    rw [he e hs]; exact h.mono e hs w
  · intro k w
    rw [hk, h0]; exact h.same k w
  · intro k w
    rw [hk, h0]; exact h.reach k w
  · intro k w
    rw [hk]; exact h.dead k w
  · intro k w
    rw [hk, hk]; exact h.step k w

theorem Steps.pure {env : ExportEnv} (r : Res α) : Steps env fun _ w => (w, r) :=
  ⟨fun _ _ _ => Nat.le_refl _, fun _ _ _ => rfl, fun _ _ h => h, fun _ _ _ => rfl, fun _ _ => Or.inl rfl⟩

/-- One program after the other, whatever the result of the first is. -/
theorem Steps.bind {env : ExportEnv} {P : ExportEnv → Disk → Disk × Res α}
    {Q : Res α → ExportEnv → Disk → Disk × Res β} (hP : Steps env P) (hQ : ∀ r, Steps env (Q r)) :
    Steps env fun e w => Q (P e w).2 e (P e w).1 := by
  have hs := killedAt_same env
  refine ⟨?_, ?_, ?_, ?_, ?_⟩
  · intro e he w
    exact Nat.le_trans (hP.mono e he w) ((hQ _).mono e he _)
  · intro k w h
    have h1 := (hQ (P env w).2).mono env ⟨rfl, rfl, rfl, rfl⟩ (P env w).1
    simp only [hP.same k w (Nat.le_trans h1 h)]
    exact (hQ _).same k _ h
  · intro k w h
    by_cases hc : (P env w).1.tick ≤ k
    · simp only [hP.same k w hc]
      exact (hQ _).reach k _ h
    · exact Nat.le_trans (hP.reach k w (by omega)) ((hQ _).mono _ (hs k) _)
  · intro k w h
    have h1 := Nat.le_trans h (hP.mono _ (hs k) w)
    rw [(hQ _).dead k _ h1]
    exact hP.dead k w h
  · intro k w
    by_cases hc : (P env w).1.tick ≤ k
    · simp only [hP.same k w hc, hP.same (k + 1) w (by omega)]
      exact (hQ _).step k _
    · rw [(hQ _).dead k _ (hP.reach k w (by omega)), (hQ _).dead (k + 1) _ (hP.reach (k + 1) w (by omega))]
      exact hP.step k w

theorem Steps.then {env : ExportEnv} {P : ExportEnv → Disk → Disk × Res α}
    {Q : ExportEnv → Disk → α → Disk × Res β} (hP : Steps env P)
    (hQ : ∀ a, Steps env fun e w => Q e w a) : Steps env fun e w => diskThen (P e w) (Q e) := by
  refine (Steps.bind (Q := fun r e w => diskThen (w, r) (Q e)) hP ?_).congr (fun _ _ _ => rfl)
  intro r
  cases r with
  | ok a => exact hQ a
  | err => exact .pure _
  | ub => exact .pure _
  | hang => exact .pure _

theorem Steps.op {env : ExportEnv} {f : Fs → Option (α × Fs)}
    (hf : ∀ fs a fs', f fs = some (a, fs') → OneOperation fs fs') : Steps env fun e w => fsOp e w f := by
  have htick : ∀ e w, (fsOp e w f).1.tick = w.tick + 1 := by
    intro e w
    rcases fsOp_cases e w f with h | ⟨a, fs, _, _, h⟩ <;> rw [h]
  have hsame : ∀ k w, w.tick < k → fsOp (killedAt env k) w f = fsOp env w f := by
    intro k w h
    have : (killedAt env k).fault w.tick = env.fault w.tick := by
      simp [killedAt, Nat.not_le.2 h]
    unfold fsOp
    rw [this]
  have hdead : ∀ k w, k ≤ w.tick → (fsOp (killedAt env k) w f).1.fs = w.fs := by
    intro k w h
    have : (killedAt env k).fault w.tick = true := by simp [killedAt, h]
    unfold fsOp
    rw [this]; rfl
  refine ⟨?_, ?_, ?_, hdead, ?_⟩
  · intro e _ w
    rw [htick]; omega
  · intro k w h
    rw [htick] at h
    exact hsame k w (by omega)
  · intro k w h
    rw [htick] at h ⊢
    exact h
  · intro k w
    rcases Nat.lt_trichotomy w.tick k with h | h | h
    · simp only [hsame k w h, hsame (k + 1) w (by omega)]
      exact Or.inl rfl
    · simp only [hdead k w (by omega), hsame (k + 1) w (by omega)]
      rcases fsOp_cases env w f with h | ⟨a, fs, _, h1, h⟩ <;> rw [h]
      · exact Or.inl rfl
      · exact hf _ _ _ h1
    · simp only [hdead k w (by omega), hdead (k + 1) w (by omega)]
      exact Or.inl rfl

theorem setFile_nothing (fs : Fs) (p : Path) : fs.setFile p ((fs.file p).map (· ++ [])) = fs := by
  unfold Fs.setFile
  cases fs with
  | mk dir file =>
    congr 1
    funext q
    simp only []
    split
    · rename_i e
      subst e
      cases file q <;> simp
    · rfl

theorem Steps.append {env : ExportEnv} (p : Path) (data : Bytes) :
    Steps env fun e w => fsAppend e w p data := by
  have htick : ∀ e w, (fsAppend e w p data).1.tick = w.tick + 1 := by
    intro e w
    unfold fsAppend
    split <;> rfl
  have hsame : ∀ k w, w.tick < k → fsAppend (killedAt env k) w p data = fsAppend env w p data := by
    intro k w h
    have h1 : (killedAt env k).fault w.tick = env.fault w.tick := by
      simp [killedAt, Nat.not_le.2 h]
    have h2 : (killedAt env k).cut w.tick = env.cut w.tick := by
      simp [killedAt, h]
    unfold fsAppend
    rw [h1, h2]
  have hdead : ∀ k w, k ≤ w.tick → (fsAppend (killedAt env k) w p data).1.fs = w.fs := by
    intro k w h
    have h1 : (killedAt env k).fault w.tick = true := by simp [killedAt, h]
    have h2 : (killedAt env k).cut w.tick = 0 := by simp [killedAt, Nat.not_lt.2 h]
    unfold fsAppend
    rw [h1, h2, if_pos rfl, List.take_zero]
    exact setFile_nothing _ _
  refine ⟨?_, ?_, ?_, hdead, ?_⟩
  · intro e _ w
    rw [htick]; omega
  · intro k w h
    rw [htick] at h
    exact hsame k w (by omega)
  · intro k w h
    rw [htick] at h ⊢
    exact h
  · intro k w
    rcases Nat.lt_trichotomy w.tick k with h | h | h
    · simp only [hsame k w h, hsame (k + 1) w (by omega)]
      exact Or.inl rfl
    · simp only [hdead k w (by omega), hsame (k + 1) w (by omega)]
      unfold fsAppend
      split
      · exact Or.inr ⟨p, Or.inr (Or.inr ⟨_, rfl⟩)⟩
      · exact Or.inr ⟨p, Or.inr (Or.inr ⟨_, rfl⟩)⟩
    · simp only [hdead k w (by omega), hdead (k + 1) w (by omega)]
      exact Or.inl rfl

theorem steps_exists {env : ExportEnv} (p : Path) : Steps env fun e w => fsExists e w p :=
  Steps.op (by intro fs a fs' h; cases h; exact Or.inl rfl)

theorem steps_close {env : ExportEnv} : Steps env fun e w => fsClose e w :=
  Steps.op (by intro fs a fs' h; cases h; exact Or.inl rfl)

theorem steps_mkdir {env : ExportEnv} (p : Path) : Steps env fun e w => fsMkdir e w p :=
  Steps.op (by
    intro fs a fs' h
    split at h
    · cases h
    · rename_i hc
      simp only [not_or, Bool.not_eq_true] at hc
      cases h
      exact Or.inr ⟨p, Or.inl ⟨hc.1, rfl⟩⟩)

theorem steps_create {env : ExportEnv} (p : Path) : Steps env fun e w => fsCreate e w p :=
  Steps.op (by
    intro fs a fs' h
    split at h
    · cases h
    · rename_i hc
      simp only [not_or, Bool.not_eq_true] at hc
      cases h
      exact Or.inr ⟨p, Or.inr (Or.inl ⟨hc.1, rfl⟩)⟩)

theorem steps_copy {env : ExportEnv} (d : DirEntry) (p : Path) : ∀ (fuel remaining : Nat) (cur : Int),
    Steps env fun e w => copyLoop e d p fuel remaining cur w := by
  intro fuel
  induction fuel with
  | zero =>
    intro remaining cur
    unfold copyLoop
    by_cases h : remaining = 0
    · simp only [if_pos h]; exact .pure _
    · simp only [if_neg h]; exact .pure _
  | succ fuel ih =>
    intro remaining cur
    unfold copyLoop
    by_cases h : remaining = 0
    · simp only [if_pos h]; exact .pure _
    · simp only [if_neg h]
      generalize (if exportBufferSize > remaining then remaining else exportBufferSize) = n
      refine Steps.congr (P' := fun e w =>
        diskThen (w, (streamRead env.ctx d cur n).1.res) fun w data =>
          if data.length ≠ n then (w, .err)
          else diskThen (fsAppend e w p data) fun w _ =>
            copyLoop e d p fuel (remaining - n) (streamRead env.ctx d cur n).2 w) ?_
        (fun e he w => by rw [he.ctx])
      refine Steps.then (.pure _) ?_
      intro data
      by_cases hl : data.length ≠ n
      · simp only [if_pos hl]; exact .pure _
      · simp only [if_neg hl]
        exact Steps.then (.append p data) (fun _ => ih _ _)

theorem steps_makeItemDirectory {env : ExportEnv} (d : DirEntry) (index : Nat) (dir : Path) :
    Steps env fun e w => makeItemDirectory e d index dir w := by
  refine Steps.congr (P' := fun e w =>
    match env.utf8Name d with
    | none => (w, .err)
    | some raw =>
      match env.sanitize raw with
      | none => (w, .err)
      | some name =>
        diskThen (fsExists e w (resolve dir name)) fun w found =>
          diskThen (pureStep w (if found then fallbackName name index else .ok name)) fun w name =>
            diskThen (fsMkdir e w (resolve dir name)) fun w _ => (w, .ok (resolve dir name))) ?_
    (fun e he w => by
      unfold makeItemDirectory
      rw [he.utf8Name, he.sanitize]
      cases env.utf8Name d with
      | none => rfl
      | some raw =>
        dsimp only
        cases env.sanitize raw <;> rfl)
  cases env.utf8Name d with
  | none => exact .pure _
  | some raw =>
    simp only []
    cases env.sanitize raw with
    | none => exact .pure _
    | some name =>
      refine Steps.then (steps_exists _) (fun found => ?_)
      refine Steps.then (Steps.pure _) (fun name => ?_)
      exact Steps.then (steps_mkdir _) (fun _ => .pure _)

theorem steps_writeItemData {env : ExportEnv} (d : DirEntry) (dir : Path) :
    Steps env fun e w => writeItemData e d dir w := by
  unfold writeItemData
  refine Steps.then (steps_exists _) (fun found => ?_)
  cases found with
  | true => exact .pure _
  | false =>
    refine Steps.then (steps_create _) (fun _ => ?_)
    refine Steps.then (steps_copy _ _ _ _ _) (fun _ => ?_)
    exact Steps.then steps_close (fun _ => .pure _)

theorem steps_loop {env : ExportEnv} {f : ExportEnv → Item → Nat → Disk → Disk × Res Unit} (it : Item)
    (hf : ∀ s i, Steps env fun e w => f e s i w) : ∀ k index,
    Steps env fun e w => exportLoop e (f e) it k index w := by
  intro k
  induction k with
  | zero => intro index; exact .pure _
  | succ k ih =>
    intro index
    refine Steps.congr (P' := fun e w =>
      diskThen (w, getSubItem env.tree it index) fun w sub =>
        match f e sub index w with
        | (w, .ok _) => exportLoop e (f e) it k (index + 1) w
        | (w, .err) => exportLoop e (f e) it k (index + 1) w
        | (w, .ub) => (w, .ub)
        | (w, .hang) => (w, .hang)) ?_ (fun e he w => by rw [exportLoop, he.tree]; rfl)
    refine Steps.then (Steps.pure _) (fun sub => ?_)
    refine (Steps.bind (Q := fun r e w => match (generalizing := false) r with
        | .ok _ => exportLoop e (f e) it k (index + 1) w
        | .err => exportLoop e (f e) it k (index + 1) w
        | .ub => (w, .ub)
        | .hang => (w, .hang)) (hf sub index) ?_).congr (fun e _ w => by
      rcases f e sub index w with ⟨w1, _ | _ | _ | _⟩ <;> rfl)
    intro r
    cases r with
    | ok _ => exact ih _
    | err => exact ih _
    | ub => exact .pure _
    | hang => exact .pure _

theorem steps_exportItem {env : ExportEnv} : ∀ (fuel : Nat) (dir : Path) (it : Item) (index : Nat),
    Steps env fun e w => exportItem e fuel dir it index w := by
  intro fuel
  induction fuel with
  | zero => intro dir it index; exact .pure _
  | succ fuel ih =>
    intro dir it index
    unfold exportItem
    refine Steps.then (steps_makeItemDirectory _ _ _) (fun itemDir => ?_)
    refine Steps.then (steps_writeItemData _ _) (fun written => ?_)
    cases written with
    | false => exact .pure _
    | true =>
      refine (steps_loop (f := fun e => exportItem e fuel itemDir) it (ih itemDir)
        (numberOfSubItems env.tree it) 0).congr (fun e he w => ?_)
      simp only [if_true, he.tree]

theorem steps_exportFile {env : ExportEnv} (fuel : Nat) (dir : Path) :
    Steps env fun e w => exportFile e fuel dir w := by
  unfold exportFile
  refine Steps.then (steps_mkdir _) (fun _ => ?_)
  exact (steps_loop (f := fun e => exportItem e fuel dir) ⟨none, env.tree.root⟩ (steps_exportItem fuel dir)
    (numberOfSubItems env.tree ⟨none, env.tree.root⟩) 0).congr (fun e he w => by simp only [he.tree])

/-! ### C108 -/

/-- C108: whatever operations on the file system fail during the export of a file that holds a document, and
  however much of the data a failing write leaves behind, what was made is a part of the image of the
  document: directories of parts and data files with an initial segment of the data of their part; what was
  there is kept.  This is so at every moment: also if the program is killed after any number of operations.
  The result is success exactly if the export directory could be made. -/
theorem C108_part_of_image {content : Bytes} {hd : HeaderFields} {slots : List SlotFields} {doc : Doc}
    (hf : HeldBy content hd slots doc) (cmp : Bytes → Bytes → Option Bool)
    (hcmp : ∀ n ∈ (entriesOfSlots slots).map (·.name), Comparable cmp n)
    (hshort : 2 ≤ hd.shortExp)
    (hsize : ∀ d ∈ entriesOfSlots slots, d.id ≠ 0 → d.type ≠ 2 → d.size = 0)
    (st : FileState) (hst : Reachable cmp st) (hclosed : st.file.handle = none)
    (h : HandleId) (hdev : st.world.dev h = Dev.ofBytes content)
    (flags : Nat) (hfl : flags % 4 = 1) :
    (openHandle cmp h flags {} st).1 = .ok () ∧
    ∃ t f, (openHandle cmp h flags {} st).2.file.tree = some t ∧
      (openHandle cmp h flags {} st).2.file.ctx
        ((openHandle cmp h flags {} st).2.world.dev h) = some f ∧
      ∀ (env : ExportEnv) (g : Bytes → Bytes) (fuel : Nat) (dir : Path) (w : Disk),
        env.tree = t → env.ctx = f → NoSeparator env.sanitize → GoodNames g doc →
        (∀ (d : DirEntry) path x, DocAt doc (path ++ [d.name]) x →
          (env.utf8Name d).bind env.sanitize = some (g d.name)) →
        (entriesOfSlots slots).length ≤ fuel → Tidy w.fs → w.fs.has dir = false →
        w.fs.dir dir.dropLast = true →
        (exportFile env fuel dir w).2 = (if env.fault w.tick then .err else .ok ()) ∧
        PartOfImage g doc dir w.fs (exportFile env fuel dir w).1.fs ∧
        ∀ k, PartOfImage g doc dir w.fs (exportFile (killedAt env k) fuel dir w).1.fs := by
  obtain ⟨h1, t, f, h2, h3, h4⟩ := held_ready hf cmp hcmp hshort hsize st hst hclosed h hdev flags hfl
  refine ⟨h1, t, f, h2, h3, ?_⟩
  intro env g fuel dir w e1 e2 hsep hg hname hfuel htidy hno hparent
  have hp := export_part (h4 env g fuel e1 e2 hsep hg hname hfuel) htidy hno hparent
  exact ⟨hp.1, hp.2.2, fun k =>
    (export_part (h4 (killedAt env k) g fuel e1 e2 hsep hg hname hfuel) htidy hno hparent).2.2⟩

/-- C108 for the files of a writer. -/
theorem C108_written_document (wr : Writer) (kids : List (Bytes × Doc)) (hst : Storable wr kids)
    (hshort : 2 ≤ wr.shortExp)
    (cmp : Bytes → Bytes → Option Bool) (hcmp : ∀ n ∈ namesOfKids kids, Comparable cmp n)
    (st : FileState) (hr : Reachable cmp st) (hclosed : st.file.handle = none)
    (h : HandleId) (hdev : st.world.dev h = Dev.ofBytes (encodeFile wr kids))
    (flags : Nat) (hfl : flags % 4 = 1) :
    (openHandle cmp h flags {} st).1 = .ok () ∧
    ∃ t f, (openHandle cmp h flags {} st).2.file.tree = some t ∧
      (openHandle cmp h flags {} st).2.file.ctx
        ((openHandle cmp h flags {} st).2.world.dev h) = some f ∧
      ∀ (env : ExportEnv) (g : Bytes → Bytes) (fuel : Nat) (dir : Path) (w : Disk),
        env.tree = t → env.ctx = f → NoSeparator env.sanitize → GoodNames g (.storage kids) →
        (∀ d : DirEntry, d.name ∈ namesOfKids kids →
          (env.utf8Name d).bind env.sanitize = some (g d.name)) →
        (namesOfKids kids).length + 1 ≤ fuel → Tidy w.fs → w.fs.has dir = false →
        w.fs.dir dir.dropLast = true →
        (exportFile env fuel dir w).2 = (if env.fault w.tick then .err else .ok ()) ∧
        PartOfImage g (.storage kids) dir w.fs (exportFile env fuel dir w).1.fs ∧
        ∀ k, PartOfImage g (.storage kids) dir w.fs (exportFile (killedAt env k) fuel dir w).1.fs := by
  obtain ⟨h1, t, f, h2, h3, h4⟩ := written_ready wr kids hst hshort cmp hcmp st hr hclosed h hdev flags hfl
  refine ⟨h1, t, f, h2, h3, ?_⟩
  intro env g fuel dir w e1 e2 hsep hg hname hfuel htidy hno hparent
  have hp := export_part (h4 env g fuel e1 e2 hsep hg hname hfuel) htidy hno hparent
  exact ⟨hp.1, hp.2.2, fun k =>
    (export_part (h4 (killedAt env k) g fuel e1 e2 hsep hg hname hfuel) htidy hno hparent).2.2⟩

/-- C108: the moments of an export.  What an export leaves that is killed after 0, 1, 2, ... operations starts
  with the file system as it was, then changes by one operation at a time, and is in the end what the
  export leaves that is not killed. -/
theorem C108_moments (env : ExportEnv) (fuel : Nat) (dir : Path) (w : Disk) :
    (∀ k ≤ w.tick, (exportFile (killedAt env k) fuel dir w).1.fs = w.fs) ∧
    (∀ k, OneOperation (exportFile (killedAt env k) fuel dir w).1.fs
      (exportFile (killedAt env (k + 1)) fuel dir w).1.fs) ∧
    ∃ n, ∀ k ≥ n, exportFile (killedAt env k) fuel dir w = exportFile env fuel dir w := by
  have h := steps_exportFile (env := env) fuel dir
  exact ⟨fun k hk => h.dead k w hk, fun k => h.step k w, _, fun k hk => h.same k w hk⟩

/-- An export of which only the first operation succeeds. -/
theorem export_nothing {env : ExportEnv} {g : Bytes → Bytes} {doc : Doc} {fuel : Nat}
    (hready : ExportReady env g doc fuel) {dir : Path} {w : Disk} (ht : Tidy w.fs)
    (hno : w.fs.has dir = false) (hparent : w.fs.dir dir.dropLast = true)
    (hfirst : env.fault w.tick = false) (hrest : ∀ n > w.tick, env.fault n = true) :
    (exportFile env fuel dir w).2 = .ok () ∧
    (exportFile env fuel dir w).1.fs = w.fs.addDir dir := by
  have hi := hready.items
  obtain ⟨list, cmp, m, hnd, htree, hfits, hfuel⟩ := hready.tree
  have hne : dir ≠ [] := by
    rintro rfl
    rw [has_of_dir ht.root] at hno; cases hno
  have hmk : fsMkdir env w dir = (⟨w.fs.addDir dir, w.tick + 1⟩, .ok ()) := by
    unfold fsMkdir
    refine fsOp_intro hfirst ?_
    rw [if_neg (by simp [hno, hne, hparent])]
  refine ⟨by rw [(export_part hready ht hno hparent).1, hfirst]; rfl, ?_⟩
  unfold exportFile
  rw [hmk]
  simp only [diskThen]
  have hmake : ∀ d index p (w' : Disk), w.tick < w'.tick →
      (makeItemDirectory env d index p w').1.fs = w'.fs ∧
      w.tick < (makeItemDirectory env d index p w').1.tick ∧
      (∀ r, (makeItemDirectory env d index p w').2 ≠ .ok r) := by
    intro d index p w' hw
    unfold makeItemDirectory
    cases env.utf8Name d with
    | none => exact ⟨rfl, hw, fun _ h => nomatch h⟩
    | some raw =>
      cases h : env.sanitize raw with
      | none => dsimp only; rw [h]; exact ⟨rfl, hw, fun _ h => nomatch h⟩
      | some name =>
        dsimp only
        rw [h]
        dsimp only
        unfold fsExists fsOp
        rw [hrest _ hw]
        exact ⟨rfl, Nat.lt_succ_of_lt hw, fun _ h => nomatch h⟩
  have hone : ∀ fuel s i p (w' : Disk), w.tick < w'.tick →
      (exportItem env fuel p s i w').1.fs = w'.fs ∧ w.tick < (exportItem env fuel p s i w').1.tick := by
    intro fuel s i p w' hw
    cases fuel with
    | zero => exact ⟨rfl, hw⟩
    | succ fuel =>
      unfold exportItem
      obtain ⟨h1, h2, h3⟩ := hmake s.entry i p w' hw
      cases hr : makeItemDirectory env s.entry i p w' with
      | mk w1 r =>
        rw [hr] at h1 h2 h3
        cases r with
        | ok x => exact absurd rfl (h3 x)
        | err => exact ⟨h1, h2⟩
        | ub => exact ⟨h1, h2⟩
        | hang => exact ⟨h1, h2⟩
  have hloop : ∀ k index (w' : Disk), w.tick < w'.tick →
      (exportLoop env (exportItem env fuel dir) ⟨none, env.tree.root⟩ k index w').1.fs = w'.fs := by
    intro k
    induction k with
    | zero => intro index w' _; rfl
    | succ k ih =>
      intro index w' hw
      unfold exportLoop pureStep
      cases getSubItem env.tree ⟨none, env.tree.root⟩ index with
      | ok s =>
        simp only [diskThen]
        obtain ⟨h1, h2⟩ := hone fuel s index dir w' hw
        cases hr : exportItem env fuel dir s index w' with
        | mk w1 r =>
          rw [hr] at h1 h2
          simp only [] at h1 h2
          cases r with
          | ok x => simp only []; rw [ih _ w1 h2, h1]
          | err => simp only []; rw [ih _ w1 h2, h1]
          | ub => exact h1
          | hang => exact h1
      | err => rfl
      | ub => rfl
      | hang => rfl
  exact hloop _ 0 _ (Nat.lt_succ_self _)

/-- C108 (violated): an export does not tell that it failed.  For every document: if nothing can
  be written after the export directory was made, the export reports success and there is nothing in the
  directory. -/
theorem C108_success_violated (wr : Writer) (kids : List (Bytes × Doc)) (hst : Storable wr kids)
    (hshort : 2 ≤ wr.shortExp)
    (cmp : Bytes → Bytes → Option Bool) (hcmp : ∀ n ∈ namesOfKids kids, Comparable cmp n)
    (st : FileState) (hr : Reachable cmp st) (hclosed : st.file.handle = none)
    (h : HandleId) (hdev : st.world.dev h = Dev.ofBytes (encodeFile wr kids))
    (flags : Nat) (hfl : flags % 4 = 1) :
    ∃ t f, (openHandle cmp h flags {} st).2.file.tree = some t ∧
      (openHandle cmp h flags {} st).2.file.ctx
        ((openHandle cmp h flags {} st).2.world.dev h) = some f ∧
      ∀ (env : ExportEnv) (g : Bytes → Bytes) (fuel : Nat) (dir : Path) (w : Disk),
        env.tree = t → env.ctx = f → NoSeparator env.sanitize → GoodNames g (.storage kids) →
        (∀ d : DirEntry, d.name ∈ namesOfKids kids →
          (env.utf8Name d).bind env.sanitize = some (g d.name)) →
        (namesOfKids kids).length + 1 ≤ fuel → Tidy w.fs → w.fs.has dir = false →
        w.fs.dir dir.dropLast = true →
        env.fault w.tick = false → (∀ n > w.tick, env.fault n = true) →
        (exportFile env fuel dir w).2 = .ok () ∧
        (∀ n, (exportFile env fuel dir w).1.fs.has (dir ++ [n]) = false) ∧
        ¬ ImageAt g (.storage kids) dir w.fs (exportFile env fuel dir w).1.fs := by
  obtain ⟨_, t, f, h2, h3, h4⟩ := written_ready wr kids hst hshort cmp hcmp st hr hclosed h hdev flags hfl
  refine ⟨t, f, h2, h3, ?_⟩
  intro env g fuel dir w e1 e2 hsep hg hname hfuel htidy hno hparent hf1 hf2
  obtain ⟨k1, k2⟩ := export_nothing (h4 env g fuel e1 e2 hsep hg hname hfuel) htidy hno hparent hf1 hf2
  have hempty : ∀ n, (exportFile env fuel dir w).1.fs.has (dir ++ [n]) = false := by
    intro n
    rw [k2]
    exact addDir_empty htidy hno n
  refine ⟨k1, hempty, fun him => ?_⟩
  cases kids with
  | nil => exact hst.nonempty rfl
  | cons k ks =>
    have := him.dirs [k.1] k.2 (.sub (path := []) .here List.mem_cons_self)
    have h1 := has_of_dir this
    rw [List.map_singleton, hempty] at h1
    cases h1

/-! ### Examples -/

/-- A file system that fails from the operation `n` on; failing writes leave two bytes. -/
def failingEnv (t : Tree) (f : FileCtx) (n : Nat) : ExportEnv :=
  { smallEnv t f with fault := fun k => decide (n ≤ k), cut := fun _ => 2 }

theorem smallDoc_namesOf : namesOfKids smallDoc = [[65, 0], [66, 0], [67, 0], [68, 0], [69, 0]] := by
  simp [smallDoc, namesOfKids, Doc.names]

/-- The small document with a file system that fails from some operation on (C108_written_document). -/
example (e : Endian) (n : Nat) : ∃ t f,
    (openHandle cmpNone (.user 1) 1 {} (smallState e)).2.file.tree = some t ∧
    (exportFile (failingEnv t f n) 6 exportPath emptyDisk).2 = (if n = 0 then .err else .ok ()) ∧
    PartOfImage fileNameOf (.storage smallDoc) exportPath emptyDisk.fs
      (exportFile (failingEnv t f n) 6 exportPath emptyDisk).1.fs := by
  obtain ⟨_, t, f, h1, h2, h3⟩ := C108_written_document _ smallDoc (smallDoc_storable e)
    (by show 2 ≤ 6; decide) cmpNone (by
    intro n _
    exact ⟨fun _ => by simp [cmpNone], fun _ => by simp [cmpNone]⟩) (smallState e)
    ⟨smallState e, [], ⟨rfl, rfl⟩, rfl⟩ rfl (.user 1) rfl 1 rfl
  have h4 := h3 (failingEnv t f n) fileNameOf 6 exportPath emptyDisk rfl rfl (smallEnv_noSep t f)
    smallDoc_names (by
      rw [smallDoc_namesOf]
      intro d hd
      have : ∀ n ∈ [[65, 0], [66, 0], [67, 0], [68, 0], [69, 0]],
        (some (fileNameOf n)).bind (fun n => some (n.map fun c => if c = 0x2f then 0x5f else c)) =
          some (fileNameOf n) := by decide
      exact this _ hd) (by rw [smallDoc_namesOf]; decide) emptyDisk_tidy (by decide) (by decide)
  refine ⟨t, f, h1, ?_, h4.2.1⟩
  rw [h4.1]
  cases n with
  | zero => rfl
  | succ n => rfl

/-- A file system that fails after the first operation meets the hypotheses of C108_success_violated. -/
example (t : Tree) (f : FileCtx) : (failingEnv t f 1).fault emptyDisk.tick = false ∧
    ∀ n > emptyDisk.tick, (failingEnv t f 1).fault n = true :=
  ⟨rfl, fun _ hn => decide_eq_true hn⟩

/-- What a part of the image cannot be: other data in a data file. -/
example (fs fs' : Fs) (h : PartOfImage fileNameOf (.storage smallDoc) exportPath fs fs')
    (hno : fs.file (exportPath ++ [[66], [67]] ++ [dataName]) = none) (data : Bytes)
    (hd : fs'.file (exportPath ++ [[66], [67]] ++ [dataName]) = some data) :
    ∃ path d, DocAt (.storage smallDoc) path d ∧ path.map fileNameOf = [[66], [67]] ∧ data <+: d.data := by
  obtain ⟨path, d, h1, _, h3, h4⟩ := h.files _ _ hd hno
  refine ⟨path, d, h1, ?_, h4⟩
  have := List.append_cancel_right h3
  rw [List.append_cancel_left_eq] at this
  exact this.symm

end Olecf.Props
