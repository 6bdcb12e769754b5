import Verif.Spec.Export
import Verif.Spec.Stream
import Mathlib.Data.List.Induction

/-
  Lemmas on the export.
-/

namespace Olecf

open Spec

/-! ### Steps -/

theorem diskThen_inv {P : Disk → Prop} {r : Disk × Res α} {f : Disk → α → Disk × Res β}
    (h : P r.1) (hf : ∀ w a, r = (w, .ok a) → P (f w a).1) : P (diskThen r f).1 := by
  obtain ⟨w, x⟩ := r
  cases x with
  | ok a => exact hf w a rfl
  | err => exact h
  | ub => exact h
  | hang => exact h

theorem diskThen_ok {r : Disk × Res α} {f : Disk → α → Disk × Res β} {w' : Disk} {b : β}
    (h : diskThen r f = (w', .ok b)) : ∃ w a, r = (w, .ok a) ∧ f w a = (w', .ok b) := by
  obtain ⟨w, x⟩ := r
  cases x with
  | ok a => exact ⟨w, a, rfl, h⟩
  | err => cases h
  | ub => cases h
  | hang => cases h

theorem diskThen_of_ok {r : Disk × Res α} {f : Disk → α → Disk × Res β} {w : Disk} {a : α}
    (h : r = (w, .ok a)) : diskThen r f = f w a := by subst h; rfl

theorem fsOp_cases (env : ExportEnv) (w : Disk) (f : Fs → Option (α × Fs)) :
    fsOp env w f = (⟨w.fs, w.tick + 1⟩, .err) ∨
    ∃ a fs, env.fault w.tick = false ∧ f w.fs = some (a, fs) ∧
      fsOp env w f = (⟨fs, w.tick + 1⟩, .ok a) := by
  unfold fsOp
  split
  · exact Or.inl rfl
  · rename_i h
    cases hf : f w.fs with
    | none => exact Or.inl rfl
    | some x =>
      obtain ⟨a, fs⟩ := x
      exact Or.inr ⟨a, fs, by simpa using h, rfl, rfl⟩

theorem fsOp_ok {env : ExportEnv} {w w' : Disk} {f : Fs → Option (α × Fs)} {a : α}
    (h : fsOp env w f = (w', .ok a)) : env.fault w.tick = false ∧ f w.fs = some (a, w'.fs) := by
  rcases fsOp_cases env w f with h1 | ⟨b, fs, h0, h1, h2⟩
  · rw [h1] at h; cases h
  · rw [h2] at h; cases h; exact ⟨h0, h1⟩

theorem fsOp_intro {env : ExportEnv} {w : Disk} {f : Fs → Option (α × Fs)} {a : α} {fs : Fs}
    (h0 : env.fault w.tick = false) (h : f w.fs = some (a, fs)) :
    fsOp env w f = (⟨fs, w.tick + 1⟩, .ok a) := by
  unfold fsOp
  rw [h0, h]
  rfl

theorem fsExists_fs (env : ExportEnv) (w : Disk) (p : Path) :
    (fsExists env w p).1.fs = w.fs := by
  unfold fsExists
  rcases fsOp_cases env w fun fs => some (fs.has p, fs) with h | ⟨a, fs, _, h1, h2⟩
  · rw [h]
  · cases h1; rw [h2]

theorem fsExists_ok {env : ExportEnv} {w w' : Disk} {p : Path} {b : Bool}
    (h : fsExists env w p = (w', .ok b)) : w'.fs = w.fs ∧ b = w.fs.has p := by
  have := (fsOp_ok h).2
  simp only [Option.some.injEq, Prod.mk.injEq] at this
  exact ⟨this.2.symm, this.1.symm⟩

theorem fsClose_fs (env : ExportEnv) (w : Disk) : (fsClose env w).1.fs = w.fs := by
  unfold fsClose
  rcases fsOp_cases env w fun fs => some ((), fs) with h | ⟨a, fs, _, h1, h2⟩
  · rw [h]
  · cases h1; rw [h2]

/-! ### Names -/

theorem components_plain {name : Bytes} (h : (0x2f : UInt8) ∉ name) :
    components name = [name] := by
  induction name with
  | nil => rfl
  | cons c rest ih =>
    simp only [List.mem_cons, not_or] at h
    rw [components, if_neg (fun e => h.1 e.symm), ih h.2]

theorem resolve_noSep {name : Bytes} (h : (0x2f : UInt8) ∉ name) (dir : Path) :
    resolve dir name = walk dir name := by
  unfold resolve
  rw [components_plain h]
  rfl

theorem resolve_plain {name : Bytes} (h : PlainName name) (dir : Path) :
    resolve dir name = dir ++ [name] := by
  obtain ⟨h1, h2, h3, h4⟩ := h
  rw [resolve_noSep h4]
  unfold walk
  rw [if_neg (by simp [h1, h2]), if_neg h3]

theorem walk_cases (dir : Path) (name : Bytes) :
    walk dir name = dir ∨ walk dir name = dir.dropLast ∨ walk dir name = dir ++ [name] := by
  unfold walk
  split
  · exact Or.inl rfl
  · split
    · exact Or.inr (Or.inl rfl)
    · exact Or.inr (Or.inr rfl)

theorem dataName_plain : PlainName dataName := by decide

theorem decimal_digit (n : Nat) : ∀ c ∈ decimal n, 48 ≤ c.toNat ∧ c.toNat ≤ 57 := by
  induction n using Nat.strongRecOn with
  | ind n ih =>
    intro c hc
    have key : ∀ k, k < 10 → 48 ≤ (UInt8.ofNat (48 + k)).toNat ∧
        (UInt8.ofNat (48 + k)).toNat ≤ 57 := by
      intro k hk
      rw [UInt8.toNat_ofNat']
      omega
    rw [decimal] at hc
    split at hc
    · rename_i h
      rw [List.mem_singleton] at hc
      subst hc
      exact key n h
    · rename_i h
      rw [List.mem_append, List.mem_singleton] at hc
      rcases hc with hc | rfl
      · exact ih _ (by omega) c hc
      · exact key _ (by omega)

theorem fallbackText_length (n : Nat) : 9 ≤ (fallbackText n).length := by
  unfold fallbackText
  simp only [List.length_append, List.length_replicate, List.length_cons, List.length_nil]
  omega

theorem fallbackText_noSep (n : Nat) : (0x2f : UInt8) ∉ fallbackText n := by
  unfold fallbackText
  intro h
  simp only [List.mem_append, List.mem_replicate] at h
  rcases h with (h | h) | h
  · revert h; decide
  · exact absurd h.2 (by decide)
  · have := (decimal_digit n _ h).1
    revert this; decide

theorem fallbackText_plain (n : Nat) : PlainName ((fallbackText n).take 9) := by
  have hl := fallbackText_length n
  have h9 : ((fallbackText n).take 9).length = 9 := by rw [List.length_take]; omega
  refine ⟨?_, ?_, ?_, fun h => fallbackText_noSep n (List.mem_of_mem_take h)⟩ <;>
  · intro h; rw [h] at h9; revert h9; decide

theorem fallbackName_ub (name : Bytes) (index : Nat) :
    fallbackName name index = .ub ↔ name.length < 9 := by
  have := fallbackText_length (index + 1)
  unfold fallbackName
  simp only []
  constructor
  · intro h
    split at h
    · omega
    · split at h
      · cases h
      · split at h
        · omega
        · cases h
  · intro h
    rw [if_pos (by omega)]

theorem fallbackName_ok {name : Bytes} {index : Nat} {r : Bytes}
    (h : fallbackName name index = .ok r) : PlainName r := by
  unfold fallbackName at h
  simp only [] at h
  split at h
  · cases h
  · split at h
    · cases h
    · split at h
      · cases h
      · cases h; exact fallbackText_plain _

/-! ### Growth -/

theorem Spec.GrownAt.refl (dir : Path) (fs : Fs) : GrownAt dir fs fs :=
  ⟨fun _ h => h, fun _ _ h => h, fun p h1 h2 => by rw [h1] at h2; cases h2⟩

theorem Spec.GrownAt.of_eq (dir : Path) {fs fs' : Fs} (h : fs' = fs) : GrownAt dir fs fs' :=
  h ▸ .refl dir fs

theorem Spec.GrownAt.mono {dir dir' : Path} {fs fs' : Fs} (h : GrownAt dir' fs fs')
    (hp : dir <+: dir') : GrownAt dir fs fs' :=
  ⟨h.dirs, h.files, fun p h1 h2 => hp.trans (h.fresh p h1 h2)⟩

theorem Spec.GrownAt.trans {dir : Path} {a b c : Fs} (h1 : GrownAt dir a b) (h2 : GrownAt dir b c) :
    GrownAt dir a c := by
  refine ⟨fun p h => h2.dirs p (h1.dirs p h), fun p d h => h2.files p d (h1.files p d h), ?_⟩
  intro p hc ha
  cases hb : b.has p with
  | true => exact h1.fresh p hb ha
  | false => exact h2.fresh p hc hb

theorem has_of_dir {fs : Fs} {p : Path} (h : fs.dir p = true) : fs.has p = true := by
  unfold Fs.has; rw [h]; rfl

theorem has_of_file {fs : Fs} {p : Path} (h : (fs.file p).isSome = true) : fs.has p = true := by
  unfold Fs.has; rw [h, Bool.or_true]

theorem has_iff {fs : Fs} {p : Path} : fs.has p = true ↔ fs.dir p = true ∨ (fs.file p).isSome := by
  unfold Fs.has; rw [Bool.or_eq_true]

theorem has_false {fs : Fs} {p : Path} (h : fs.has p = false) :
    fs.dir p = false ∧ fs.file p = none := by
  unfold Fs.has at h
  rw [Bool.or_eq_false_iff] at h
  exact ⟨h.1, by simpa using h.2⟩

theorem Spec.GrownAt.has {dir : Path} {a b : Fs} (h : GrownAt dir a b) {p : Path}
    (hp : a.has p = true) : b.has p = true := by
  rcases has_iff.1 hp with h1 | h1
  · exact has_of_dir (h.dirs p h1)
  · obtain ⟨d, hd⟩ := Option.isSome_iff_exists.1 h1
    exact has_of_file (by rw [h.files p d hd]; rfl)

/-- Nothing is below a path that does not exist. -/
theorem Spec.Tidy.below {fs : Fs} (h : Tidy fs) {p : Path} (hp : fs.dir p = false) :
    ∀ q, q ≠ [] → fs.has (p ++ q) = false := by
  intro q
  induction q using List.reverseRecOn with
  | nil => intro h; exact absurd rfl h
  | append_singleton q x ih =>
    intro _
    have hd : fs.dir (p ++ q) = false := by
      by_cases hq : q = []
      · subst hq; simpa using hp
      · exact (has_false (ih hq)).1
    have hdl : (p ++ (q ++ [x])).dropLast = p ++ q := by
      rw [← List.append_assoc, List.dropLast_concat]
    cases hh : fs.has (p ++ (q ++ [x])) with
    | false => rfl
    | true =>
      have : fs.dir (p ++ q) = true := by
        rw [← hdl]
        rcases has_iff.1 hh with h1 | h1
        · exact h.dirs _ h1
        · exact h.files _ h1
      rw [hd] at this; cases this

theorem mkdir_tidy {fs : Fs} (h : Tidy fs) {p : Path} (hp : fs.has p = false)
    (hd : fs.dir p.dropLast = true) :
    Tidy (fs.addDir p) ∧ GrownAt p fs (fs.addDir p) := by
  obtain ⟨hp1, hp2⟩ := has_false hp
  unfold Fs.addDir
  have hmono : ∀ q, fs.dir q = true → (if q = p then true else fs.dir q) = true := by
    intro q hq; split <;> simp_all
  refine ⟨⟨hmono _ h.root, ?_, fun q hq => hmono _ (h.files q hq), ?_⟩, ⟨hmono, fun _ _ h => h, ?_⟩⟩
  · intro q hq
    simp only [] at hq
    split at hq
    · rename_i e; subst e; exact hmono _ hd
    · exact hmono _ (h.dirs q hq)
  · intro q hq
    simp only [] at hq
    split at hq
    · rename_i e; subst e; exact hp2
    · exact h.apart q hq
  · intro q h1 h2
    obtain ⟨h3, h4⟩ := has_false h2
    rcases has_iff.1 h1 with h5 | h5
    · simp only [] at h5
      split at h5
      · rename_i e; exact e ▸ List.prefix_refl _
      · rw [h3] at h5; cases h5
    · simp only [h4] at h5; cases h5

theorem create_tidy {fs : Fs} (h : Tidy fs) {p : Path} (hp : fs.has p = false)
    (hd : fs.dir p.dropLast = true) :
    Tidy (fs.setFile p (some [])) ∧ GrownAt p fs (fs.setFile p (some [])) := by
  obtain ⟨hp1, hp2⟩ := has_false hp
  unfold Fs.setFile
  refine ⟨⟨h.root, h.dirs, ?_, ?_⟩, ⟨fun _ h => h, ?_, ?_⟩⟩
  · intro q hq
    simp only [] at hq
    split at hq
    · rename_i e; subst e; exact hd
    · exact h.files q hq
  · intro q hq
    simp only []
    split
    · rename_i e; subst e; simp only [] at hq; rw [hp1] at hq; cases hq
    · exact h.apart q hq
  · intro q d hq
    simp only []
    split
    · rename_i e; subst e; rw [hp2] at hq; cases hq
    · exact hq
  · intro q h1 h2
    obtain ⟨h3, h4⟩ := has_false h2
    rcases has_iff.1 h1 with h5 | h5
    · simp only [h3] at h5; cases h5
    · simp only [] at h5
      split at h5
      · rename_i e; exact e ▸ List.prefix_refl _
      · rw [h4] at h5; cases h5

/-! ### The copy loop -/

/-- What the copy loop leaves alone. -/
structure SameBut (p : Path) (fs fs' : Fs) : Prop where
  dir : fs'.dir = fs.dir
  file : ∀ q, q ≠ p → fs'.file q = fs.file q
  some : (fs'.file p).isSome = (fs.file p).isSome

theorem SameBut.refl (p : Path) (fs : Fs) : SameBut p fs fs := ⟨rfl, fun _ _ => rfl, rfl⟩

theorem SameBut.trans {p : Path} {a b c : Fs} (h1 : SameBut p a b) (h2 : SameBut p b c) :
    SameBut p a c :=
  ⟨h2.dir.trans h1.dir, fun q hq => (h2.file q hq).trans (h1.file q hq), h2.some.trans h1.some⟩

theorem setFile_same (fs : Fs) (p : Path) (data : Bytes) :
    SameBut p fs (fs.setFile p ((fs.file p).map (· ++ data))) :=
  ⟨rfl, fun q hq => by simp only [Fs.setFile, if_neg hq], by simp [Fs.setFile]⟩

theorem fsAppend_same (env : ExportEnv) (w : Disk) (p : Path) (data : Bytes) :
    SameBut p w.fs (fsAppend env w p data).1.fs := by
  unfold fsAppend
  split <;> exact setFile_same _ _ _

theorem fsAppend_ok {env : ExportEnv} {w w' : Disk} {p : Path} {data : Bytes}
    (h : fsAppend env w p data = (w', .ok ())) :
    w'.fs.file p = (w.fs.file p).map (· ++ data) := by
  unfold fsAppend at h
  split at h
  · cases h
  · cases h
    simp [Fs.setFile]

theorem copyLoop_same (env : ExportEnv) (d : DirEntry) (p : Path) : ∀ (fuel remaining : Nat)
    (cur : Int) (w : Disk), SameBut p w.fs (copyLoop env d p fuel remaining cur w).1.fs := by
  intro fuel
  induction fuel with
  | zero =>
    intro remaining cur w
    unfold copyLoop
    split <;> exact .refl _ _
  | succ fuel ih =>
    intro remaining cur w
    unfold copyLoop
    split
    · exact .refl _ _
    · simp only []
      generalize (if exportBufferSize > remaining then remaining else exportBufferSize) = n
      refine diskThen_inv (P := fun x => SameBut p w.fs x.fs) (.refl _ _) ?_
      intro w1 data h1
      rw [Prod.mk.injEq] at h1
      obtain ⟨rfl, _⟩ := h1
      split
      · exact .refl _ _
      · refine diskThen_inv (P := fun x => SameBut p w.fs x.fs) (fsAppend_same env w p data) ?_
        intro w2 _ h2
        have := fsAppend_same env w p data
        rw [h2] at this
        exact this.trans (ih _ _ w2)

/-- What a successful run of the copy loop wrote: the data of a sequence of reads. -/
theorem copyLoop_ok (env : ExportEnv) (d : DirEntry) (p : Path) : ∀ (fuel remaining : Nat)
    (cur : Int) (w w' : Disk) (c : Bytes), copyLoop env d p fuel remaining cur w = (w', .ok ()) →
    w.fs.file p = some c →
    ∃ sizes pieces, sizes.sum = remaining ∧ (remaining ≠ 0 → sizes ≠ []) ∧
      (remaining = 0 → sizes = []) ∧
      readAll env.ctx d cur sizes = some pieces ∧ w'.fs.file p = some (c ++ pieces.flatten) := by
  intro fuel
  induction fuel with
  | zero =>
    intro remaining cur w w' c h hc
    unfold copyLoop at h
    split at h
    · rename_i h0
      cases h
      exact ⟨[], [], by simp [h0], fun h => absurd h0 h, fun _ => rfl, rfl, by simp [hc]⟩
    · cases h
  | succ fuel ih =>
    intro remaining cur w w' c h hc
    unfold copyLoop at h
    split at h
    · rename_i h0
      cases h
      exact ⟨[], [], by simp [h0], fun h => absurd h0 h, fun _ => rfl, rfl, by simp [hc]⟩
    · rename_i h0
      simp only [] at h
      generalize hn : (if exportBufferSize > remaining then remaining else exportBufferSize) = n
        at h
      have hle : n ≤ remaining := by rw [← hn]; split <;> omega
      obtain ⟨w1, data, h1, h⟩ := diskThen_ok h
      simp only [Prod.mk.injEq] at h1
      obtain ⟨rfl, h1⟩ := h1
      split at h
      · cases h
      · obtain ⟨w2, _, h2, h⟩ := diskThen_ok h
        have h3 := fsAppend_ok h2
        rw [hc] at h3
        obtain ⟨sizes, pieces, k1, k2, k3, k4, k5⟩ := ih _ _ w2 w' _ h h3
        refine ⟨n :: sizes, data :: pieces, ?_, fun _ => by simp, fun h => absurd h h0, ?_, ?_⟩
        · rw [List.sum_cons, k1]; omega
        · rw [readAll, h1]
          simp only []
          rw [k4]; rfl
        · rw [k5, List.flatten_cons, List.append_assoc]

/-! ### The directory of an item -/

theorem makeItemDirectory_grown {env : ExportEnv} (hs : NoSeparator env.sanitize) {d : DirEntry}
    {index : Nat} {dir : Path} {w : Disk} (ht : Tidy w.fs) (hd : w.fs.dir dir = true) :
    (Tidy (makeItemDirectory env d index dir w).1.fs ∧
      GrownAt dir w.fs (makeItemDirectory env d index dir w).1.fs) ∧
    ∀ w' p, makeItemDirectory env d index dir w = (w', .ok p) →
      (∃ name, p = dir ++ [name]) ∧ w.fs.has p = false ∧ w'.fs = w.fs.addDir p ∧
      GrownAt p w.fs w'.fs := by
  unfold makeItemDirectory
  have h0 : Tidy w.fs ∧ GrownAt dir w.fs w.fs := ⟨ht, .refl _ _⟩
  cases env.utf8Name d with
  | none => exact ⟨h0, by intro _ _ h; cases h⟩
  | some raw =>
    simp only []
    cases hsan : env.sanitize raw with
    | none => exact ⟨h0, by intro _ _ h; cases h⟩
    | some name =>
      simp only []
      -- the outcome of making the directory for a name without separator
      have key : ∀ (w1 : Disk) (n : Bytes), w1.fs = w.fs → (0x2f : UInt8) ∉ n →
          (Tidy (diskThen (fsMkdir env w1 (resolve dir n)) fun w _ => (w, .ok (resolve dir n))).1.fs ∧
            GrownAt dir w.fs
              (diskThen (fsMkdir env w1 (resolve dir n)) fun w _ => (w, .ok (resolve dir n))).1.fs) ∧
          ∀ w' p, (diskThen (fsMkdir env w1 (resolve dir n)) fun w _ => (w, .ok (resolve dir n))) =
              (w', .ok p) →
            (∃ name, p = dir ++ [name]) ∧ w.fs.has p = false ∧ w'.fs = w.fs.addDir p ∧
            GrownAt p w.fs w'.fs := by
        intro w1 n hw1 hn
        unfold fsMkdir
        rcases fsOp_cases env w1 fun fs =>
            if fs.has (resolve dir n) ∨ resolve dir n = [] ∨ ¬ fs.dir (resolve dir n).dropLast
            then none
            else some ((), fs.addDir (resolve dir n))
          with h | ⟨a, fs, _, h1, h2⟩
        · rw [h]
          refine ⟨?_, by intro _ _ h; cases h⟩
          show Tidy w1.fs ∧ GrownAt dir w.fs w1.fs
          rw [hw1]; exact h0
        · rw [h2]
          split at h1
          · cases h1
          · rename_i hc
            simp only [not_or, Bool.not_eq_true, Bool.not_eq_false] at hc
            simp only [Option.some.injEq, Prod.mk.injEq] at h1
            rw [hw1] at hc h1
            have hpath : resolve dir n = dir ++ [n] := by
              rw [resolve_noSep hn] at hc ⊢
              rcases walk_cases dir n with h | h | h
              · rw [h, has_of_dir hd] at hc; cases hc.1
              · rw [h, has_of_dir (ht.dirs _ hd)] at hc; cases hc.1
              · exact h
            have hg := mkdir_tidy ht hc.1 hc.2.2
            rw [h1.2] at hg
            refine ⟨⟨hg.1, hg.2.mono (by rw [hpath]; exact List.prefix_append _ _)⟩, ?_⟩
            intro w' p h
            cases h
            exact ⟨⟨n, hpath⟩, hc.1, h1.2.symm, hg.2⟩
      have hE := fsExists_fs env w (resolve dir name)
      cases hr : fsExists env w (resolve dir name) with
      | mk w1 r =>
        rw [hr] at hE
        cases r with
        | ok found =>
          simp only [diskThen, pureStep]
          cases found with
          | false =>
            exact key w1 name hE (hs raw name hsan)
          | true =>
            simp only [if_true]
            cases hf : fallbackName name index with
            | ok n => exact key w1 n hE (fallbackName_ok hf).2.2.2
            | err =>
              refine ⟨?_, by intro _ _ h; cases h⟩
              show Tidy w1.fs ∧ GrownAt dir w.fs w1.fs
              rw [hE]; exact h0
            | ub =>
              refine ⟨?_, by intro _ _ h; cases h⟩
              show Tidy w1.fs ∧ GrownAt dir w.fs w1.fs
              rw [hE]; exact h0
            | hang =>
              refine ⟨?_, by intro _ _ h; cases h⟩
              show Tidy w1.fs ∧ GrownAt dir w.fs w1.fs
              rw [hE]; exact h0
        | err =>
          refine ⟨?_, by intro _ _ h; cases h⟩
          show Tidy w1.fs ∧ GrownAt dir w.fs w1.fs
          rw [hE]; exact h0
        | ub =>
          refine ⟨?_, by intro _ _ h; cases h⟩
          show Tidy w1.fs ∧ GrownAt dir w.fs w1.fs
          rw [hE]; exact h0
        | hang =>
          refine ⟨?_, by intro _ _ h; cases h⟩
          show Tidy w1.fs ∧ GrownAt dir w.fs w1.fs
          rw [hE]; exact h0

theorem addDir_dir (fs : Fs) (p : Path) : (fs.addDir p).dir p = true := by simp [Fs.addDir]

/-- A new directory is empty. -/
theorem addDir_empty {fs : Fs} (h : Tidy fs) {p : Path} (hp : fs.has p = false) (name : Bytes) :
    (fs.addDir p).has (p ++ [name]) = false := by
  have h0 := h.below (has_false hp).1 [name] (by simp)
  unfold Fs.has Fs.addDir at *
  simp only [Bool.or_eq_false_iff] at h0 ⊢
  rw [if_neg (by simp)]
  exact h0

/-! ### The data file of an item -/

theorem SameBut.tidy {p : Path} {fs fs' : Fs} (h : SameBut p fs fs') (ht : Tidy fs) :
    Tidy fs' := by
  have hs : ∀ q, (fs'.file q).isSome = (fs.file q).isSome := by
    intro q
    by_cases hq : q = p
    · subst hq; exact h.some
    · rw [h.file q hq]
  refine ⟨by rw [h.dir]; exact ht.root, ?_, ?_, ?_⟩
  · intro q hq; rw [h.dir] at hq ⊢; exact ht.dirs q hq
  · intro q hq; rw [hs] at hq; rw [h.dir]; exact ht.files q hq
  · intro q hq
    rw [h.dir] at hq
    have := hs q
    rw [ht.apart q hq] at this
    simpa using this

/-- Growth by a new file whose content is then changed. -/
theorem Spec.GrownAt.sameBut {p : Path} {a b c : Fs} (h : GrownAt p a b) (hp : a.has p = false)
    (hs : SameBut p b c) : GrownAt p a c := by
  refine ⟨fun q hq => by rw [hs.dir]; exact h.dirs q hq, ?_, ?_⟩
  · intro q d hq
    have : q ≠ p := by
      rintro rfl; rw [(has_false hp).2] at hq; cases hq
    rw [hs.file q this]
    exact h.files q d hq
  · intro q h1 h2
    refine h.fresh q ?_ h2
    rcases has_iff.1 h1 with h3 | h3
    · rw [hs.dir] at h3; exact has_of_dir h3
    · by_cases hq : q = p
      · subst hq; exact has_of_file (by rw [← hs.some]; exact h3)
      · rw [hs.file q hq] at h3; exact has_of_file h3

theorem writeItemData_grown {env : ExportEnv} {d : DirEntry} {dir : Path} {w : Disk}
    (ht : Tidy w.fs) (hd : w.fs.dir dir = true) :
    (Tidy (writeItemData env d dir w).1.fs ∧
      GrownAt (dir ++ [dataName]) w.fs (writeItemData env d dir w).1.fs) ∧
    ∀ w' b, writeItemData env d dir w = (w', .ok b) →
      b = !(w.fs.has (dir ++ [dataName])) ∧
      (b = true → ∃ sizes pieces, sizes.sum = d.size ∧ (d.size ≠ 0 → sizes ≠ []) ∧
        (d.size = 0 → sizes = []) ∧
        readAll env.ctx d 0 sizes = some pieces ∧
        w'.fs.file (dir ++ [dataName]) = some pieces.flatten) := by
  unfold writeItemData
  rw [resolve_plain dataName_plain]
  generalize hp : dir ++ [dataName] = p
  have hdl : p.dropLast = dir := by rw [← hp, List.dropLast_concat]
  have h0 : Tidy w.fs ∧ GrownAt p w.fs w.fs := ⟨ht, .refl _ _⟩
  have hE := fsExists_fs env w p
  cases hr : fsExists env w p with
  | mk w1 r =>
    rw [hr] at hE
    simp only [] at hE
    have h0' : Tidy w1.fs ∧ GrownAt p w.fs w1.fs := by rw [hE]; exact h0
    cases r with
    | err => exact ⟨h0', by intro _ _ h; cases h⟩
    | ub => exact ⟨h0', by intro _ _ h; cases h⟩
    | hang => exact ⟨h0', by intro _ _ h; cases h⟩
    | ok found =>
      obtain ⟨_, rfl⟩ := fsExists_ok hr
      simp only [diskThen]
      cases hf : w.fs.has p with
      | true =>
        refine ⟨h0', ?_⟩
        intro w' b h
        cases h
        exact ⟨rfl, by simp⟩
      | false =>
        simp only [Bool.false_eq_true, if_false]
        have hC : (fsCreate env w1 p = (⟨w1.fs, w1.tick + 1⟩, .err)) ∨
            fsCreate env w1 p = (⟨w.fs.setFile p (some []), w1.tick + 1⟩, .ok ()) := by
          unfold fsCreate
          rcases fsOp_cases env w1 fun fs =>
            if fs.dir p ∨ p = [] ∨ ¬ fs.dir p.dropLast then none
            else some ((), fs.setFile p (some []))
            with h | ⟨a, fs, _, h1, h2⟩
          · exact Or.inl h
          · refine Or.inr ?_
            rw [h2]
            split at h1
            · cases h1
            · simp only [Option.some.injEq, Prod.mk.injEq] at h1
              rw [← h1.2, hE]
        rcases hC with hC | hC
        · rw [hC]
          exact ⟨h0', by intro _ _ h; cases h⟩
        · have hg := create_tidy ht hf (by rw [hdl]; exact hd)
          have hc0 : (Disk.mk (w.fs.setFile p (some [])) (w1.tick + 1)).fs.file p = some [] := by
            simp [Fs.setFile]
          generalize hw2 : Disk.mk (w.fs.setFile p (some [])) (w1.tick + 1) = w2 at hC hc0
          have hw2' : w2.fs = w.fs.setFile p (some []) := by rw [← hw2]
          rw [← hw2'] at hg
          rw [hC]
          simp only []
          have hS := copyLoop_same env d p d.size d.size 0 w2
          cases hL : copyLoop env d p d.size d.size 0 w2 with
          | mk w3 r =>
            rw [hL] at hS
            have h3 : Tidy w3.fs ∧ GrownAt p w.fs w3.fs := ⟨hS.tidy hg.1, hg.2.sameBut hf hS⟩
            cases r with
            | err => exact ⟨h3, by intro _ _ h; cases h⟩
            | ub => exact ⟨h3, by intro _ _ h; cases h⟩
            | hang => exact ⟨h3, by intro _ _ h; cases h⟩
            | ok _ =>
              simp only []
              obtain ⟨sizes, pieces, k1, k2, k2', k3, k4⟩ := copyLoop_ok env d p _ _ _ _ _ _ hL hc0
              have hcl := fsClose_fs env w3
              cases hCl : fsClose env w3 with
              | mk w4 r =>
                rw [hCl] at hcl
                simp only [] at hcl
                have h4 : Tidy w4.fs ∧ GrownAt p w.fs w4.fs := by rw [hcl]; exact h3
                cases r with
                | err => exact ⟨h4, by intro _ _ h; cases h⟩
                | ub => exact ⟨h4, by intro _ _ h; cases h⟩
                | hang => exact ⟨h4, by intro _ _ h; cases h⟩
                | ok _ =>
                  refine ⟨h4, ?_⟩
                  intro w' b h
                  cases h
                  refine ⟨rfl, fun _ => ⟨sizes, pieces, k1, k2, k2', k3, ?_⟩⟩
                  rw [hcl, k4, List.nil_append]

end Olecf
