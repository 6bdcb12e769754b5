import Verif.Lemmas.Export
import Verif.Props.Stream
import Verif.Props.Tree
import Mathlib.Data.List.Nodup
import Mathlib.Tactic.Choose
import Mathlib.Data.List.Induction

/-
  C45, C46, C58, C59: the export of items to files.
-/

namespace Olecf.Props

open Spec

/-! ### C58: the export only adds, and only below the export directory -/

theorem exportLoop_grown {env : ExportEnv} {f : Item → Nat → Disk → Disk × Res Unit}
    {dir : Path} (item : Item)
    (hf : ∀ sub index w, Tidy w.fs → w.fs.dir dir = true →
      Tidy (f sub index w).1.fs ∧ GrownAt dir w.fs (f sub index w).1.fs) :
    ∀ n index w, Tidy w.fs → w.fs.dir dir = true →
      Tidy (exportLoop env f item n index w).1.fs ∧
      GrownAt dir w.fs (exportLoop env f item n index w).1.fs := by
  intro n
  induction n with
  | zero => intro index w ht _; exact ⟨ht, .refl _ _⟩
  | succ n ih =>
    intro index w ht hd
    unfold exportLoop
    refine diskThen_inv (P := fun x => Tidy x.fs ∧ GrownAt dir w.fs x.fs) ⟨ht, .refl _ _⟩ ?_
    intro w1 sub h1
    unfold pureStep at h1
    rw [Prod.mk.injEq] at h1
    obtain ⟨rfl, _⟩ := h1
    have h2 := hf sub index w ht hd
    generalize f sub index w = r at h2
    obtain ⟨w2, x⟩ := r
    have h3 := ih (index + 1) w2 h2.1 (h2.2.dirs _ hd)
    cases x with
    | ok _ => exact ⟨h3.1, h2.2.trans h3.2⟩
    | err => exact ⟨h3.1, h2.2.trans h3.2⟩
    | ub => exact h2
    | hang => exact h2

theorem exportItem_grown {env : ExportEnv} (hs : NoSeparator env.sanitize) :
    ∀ fuel dir item index w, Tidy w.fs → w.fs.dir dir = true →
      Tidy (exportItem env fuel dir item index w).1.fs ∧
      GrownAt dir w.fs (exportItem env fuel dir item index w).1.fs := by
  intro fuel
  induction fuel with
  | zero => intro dir item index w ht _; exact ⟨ht, .refl _ _⟩
  | succ fuel ih =>
    intro dir item index w ht hd
    unfold exportItem
    have hm := makeItemDirectory_grown hs (d := item.entry) (index := index) ht hd
    refine diskThen_inv (P := fun x => Tidy x.fs ∧ GrownAt dir w.fs x.fs) hm.1 ?_
    intro w1 p h1
    obtain ⟨⟨name, hp⟩, _, hadd, _⟩ := hm.2 w1 p h1
    have hdir : w1.fs.dir p = true := by rw [hadd]; exact addDir_dir _ _
    have hm1 := hm.1
    rw [h1] at hm1
    have hpre : dir <+: p := by rw [hp]; exact List.prefix_append _ _
    have hw := writeItemData_grown (env := env) (d := item.entry) hm1.1 hdir
    have hw1 : Tidy (writeItemData env item.entry p w1).1.fs ∧
        GrownAt dir w.fs (writeItemData env item.entry p w1).1.fs :=
      ⟨hw.1.1, hm1.2.trans (hw.1.2.mono (hpre.trans (List.prefix_append _ _)))⟩
    refine diskThen_inv (P := fun x => Tidy x.fs ∧ GrownAt dir w.fs x.fs) hw1 ?_
    intro w2 b h2
    rw [h2] at hw1 hw
    split
    · have h3 := exportLoop_grown (env := env) (f := exportItem env fuel p) item
        (fun sub index w => ih p sub index w) (numberOfSubItems env.tree item) 0 w2 hw1.1
        (hw.1.2.dirs _ hdir)
      exact ⟨h3.1, hw1.2.trans (h3.2.mono hpre)⟩
    · exact hw1

/-- C58: whatever the file contains, whichever operations on the file system fail and however the
  export ends: every directory and file that existed before is left as it was, and everything new
  is at or below the directory of the export. -/
theorem C58_export_stays_inside {env : ExportEnv} (hs : NoSeparator env.sanitize) (fuel : Nat)
    (dir : Path) (w : Disk) (ht : Tidy w.fs) :
    GrownAt dir w.fs (exportFile env fuel dir w).1.fs := by
  unfold exportFile fsMkdir
  rcases fsOp_cases env w fun fs =>
      if fs.has dir ∨ dir = [] ∨ ¬ fs.dir dir.dropLast then none else some ((), fs.addDir dir)
    with h | ⟨a, fs, _, h1, h2⟩
  · rw [h]; exact .refl _ _
  · rw [h2]
    simp only [diskThen]
    split at h1
    · cases h1
    · rename_i hc
      simp only [not_or, Bool.not_eq_true, Bool.not_eq_false] at hc
      simp only [Option.some.injEq, Prod.mk.injEq] at h1
      have hg := mkdir_tidy ht hc.1 hc.2.2
      rw [h1.2] at hg
      have hd : fs.dir dir = true := by rw [← h1.2]; simp [Fs.addDir]
      exact hg.2.trans (exportLoop_grown _
        (fun sub index w => exportItem_grown hs fuel dir sub index w) _ _ ⟨fs, w.tick + 1⟩ hg.1
        hd).2

/-- C58: an existing export directory is not used. -/
theorem C58_existing_directory_refused (env : ExportEnv) (fuel : Nat) (dir : Path) (w : Disk)
    (h : w.fs.has dir = true) :
    (exportFile env fuel dir w).2 = .err ∧ (exportFile env fuel dir w).1.fs = w.fs := by
  unfold exportFile fsMkdir
  rcases fsOp_cases env w fun fs =>
      if fs.has dir ∨ dir = [] ∨ ¬ fs.dir dir.dropLast then none else some ((), fs.addDir dir)
    with h1 | ⟨a, fs, _, h1, h2⟩
  · rw [h1]; exact ⟨rfl, rfl⟩
  · rw [if_pos (Or.inl h)] at h1; cases h1

/-! ### C45: the data file has the whole stream -/

theorem readAll_type {f : FileCtx} {d : DirEntry} {cur : Int} {size : Nat} {sizes : List Nat}
    {pieces : List Bytes} (h : readAll f d cur (size :: sizes) = some pieces) : d.type = 2 := by
  by_cases ht : d.type = 2
  · exact ht
  · rw [readAll, (C31_only_streams f ht cur size 0 .set).1] at h
    cases h

/-- What an export needs to know of an item: its fields are in range and its size needs at most
  2^31 - 1 sectors (see C50). -/
def ItemFits (f : FileCtx) (d : DirEntry) : Prop :=
  EntryFits d ∧ d.size ≤ unitOf f d * 2147483647

theorem whole_of_pieces {f : FileCtx} (hctx : WellFormedCtx f) {content : Bytes}
    (hdev : f.dev = Dev.ofBytes content) {d : DirEntry} (hd : ItemFits f d) {sizes : List Nat}
    {pieces : List Bytes} (h1 : sizes.sum = d.size) (h2 : d.size ≠ 0 → sizes ≠ [])
    (h3 : d.size = 0 → sizes = []) (h4 : readAll f d 0 sizes = some pieces) :
    WholeData f d pieces.flatten := by
  unfold WholeData
  split
  · rename_i h0
    rw [h3 h0] at h4
    cases h4; rfl
  · rename_i h0
    have hne := h2 h0
    have ht : d.type = 2 := by
      cases sizes with
      | nil => exact absurd rfl hne
      | cons a l => exact readAll_type h4
    have := C27_pieces_equal_whole hctx ⟨hd.1, ht, hd.2⟩ hdev sizes 0 pieces hne
      (by rw [h1]; have := hd.1.size; omega) h4
    rw [h1] at this
    exact this

/-- C45: if the export of an item succeeds, a new directory has been made for it and the data
  file in it has exactly what a single read of the whole stream returns. -/
theorem C45_export_writes_whole_stream {env : ExportEnv} (hs : NoSeparator env.sanitize)
    (hctx : WellFormedCtx env.ctx) {content : Bytes} (hdev : env.ctx.dev = Dev.ofBytes content)
    {item : Item} (hd : ItemFits env.ctx item.entry) {fuel : Nat} {dir : Path} {index : Nat}
    {w w' : Disk} (ht : Tidy w.fs) (hdir : w.fs.dir dir = true)
    (h : exportItem env fuel dir item index w = (w', .ok ())) :
    ∃ name data, w.fs.has (dir ++ [name]) = false ∧
      w'.fs.file (dir ++ [name, dataName]) = some data ∧ WholeData env.ctx item.entry data := by
  cases fuel with
  | zero => cases h
  | succ fuel =>
    unfold exportItem at h
    have hm := makeItemDirectory_grown hs (d := item.entry) (index := index) ht hdir
    obtain ⟨w1, p, h1, h⟩ := diskThen_ok h
    obtain ⟨⟨name, hp⟩, hfresh, hadd, _⟩ := hm.2 w1 p h1
    have hpd : w1.fs.dir p = true := by rw [hadd]; exact addDir_dir _ _
    have hm1 := hm.1
    rw [h1] at hm1
    have hw := writeItemData_grown (env := env) (d := item.entry) hm1.1 hpd
    obtain ⟨w2, b, h2, h⟩ := diskThen_ok h
    obtain ⟨hb, hdata⟩ := hw.2 w2 b h2
    have hw1 := hw.1
    rw [h2] at hw1
    have hno : w1.fs.has (p ++ [dataName]) = false := by rw [hadd]; exact addDir_empty ht hfresh _
    rw [hno] at hb
    subst hb
    obtain ⟨sizes, pieces, k1, k2, k2', k3, k4⟩ := hdata rfl
    simp only [Bool.not_false, if_true] at h
    have h3 := (exportLoop_grown (env := env) (f := exportItem env fuel p) item
        (fun sub index w => exportItem_grown hs fuel p sub index w)
        (numberOfSubItems env.tree item) 0 w2 hw1.1 (hw1.2.dirs _ hpd)).2
    rw [h] at h3
    refine ⟨name, pieces.flatten, by rw [← hp]; exact hfresh, ?_,
      whole_of_pieces hctx hdev hd k1 k2 k2' k3⟩
    have := h3.files _ _ k4
    rw [hp] at this
    simpa using this

/-- C45: byte by byte, for a file whose short sectors are not larger than its sectors (C23): byte
  `j` of the data file is byte `j` of the stream. -/
theorem C45_export_bytes {env : ExportEnv} (hs : NoSeparator env.sanitize)
    (hctx : WellFormedCtx env.ctx) {content : Bytes} (hdev : env.ctx.dev = Dev.ofBytes content)
    {item : Item} (hd : ItemFits env.ctx item.entry) (hn : Nested env.ctx item.entry) {fuel : Nat}
    {dir : Path} {index : Nat} {w w' : Disk} (ht : Tidy w.fs) (hdir : w.fs.dir dir = true)
    (h : exportItem env fuel dir item index w = (w', .ok ())) :
    ∃ name data, w.fs.has (dir ++ [name]) = false ∧
      w'.fs.file (dir ++ [name, dataName]) = some data ∧ data.length = item.entry.size ∧
      ∀ j, j < data.length → data[j]? = streamByte content env.ctx item.entry j := by
  obtain ⟨name, data, h1, h2, h3⟩ := C45_export_writes_whole_stream hs hctx hdev hd ht hdir h
  refine ⟨name, data, h1, h2, ?_⟩
  unfold WholeData at h3
  split at h3
  · rename_i h0
    subst h3
    exact ⟨h0.symm, fun j hj => absurd hj (by simp)⟩
  · have hty : item.entry.type = 2 := by
      by_cases hty : item.entry.type = 2
      · exact hty
      · rw [(C31_only_streams env.ctx hty 0 item.entry.size 0 .set).1] at h3
        cases h3
    have := C23_read_returns_stream_bytes_partial hctx ⟨hd.1, hty, hd.2⟩ hn hdev (cur := 0) h3
    refine ⟨by have := this.1; omega, fun j hj => ?_⟩
    have := this.2 j hj
    rwa [Nat.zero_add] at this

theorem copyLoop_defined {env : ExportEnv} (hctx : WellFormedCtx env.ctx) {d : DirEntry}
    (hd : ItemFits env.ctx d) (p : Path) : ∀ (fuel remaining cur : Nat) (w : Disk),
    remaining ≤ fuel → remaining ≤ d.size → (copyLoop env d p fuel remaining cur w).2.Defined := by
  intro fuel
  induction fuel with
  | zero =>
    intro remaining cur w h _
    unfold copyLoop
    rw [if_pos (by omega)]
    trivial
  | succ fuel ih =>
    intro remaining cur w h hsz
    unfold copyLoop
    split
    · trivial
    · simp only []
      generalize hn : (if exportBufferSize > remaining then remaining else exportBufferSize) = n
      have hle : n ≤ remaining ∧ 0 < n := by rw [← hn]; unfold exportBufferSize; split <;> omega
      by_cases hty : d.type = 2
      · have hok : StreamOk env.ctx d := ⟨hd.1, hty, hd.2⟩
        have hfit := hd.1.size
        have h1 := (C25_counts_clamped hctx hok cur n (by omega)).1
        have h2 := (C26_offset_advances hctx hok cur n).1
        cases hr : (streamRead env.ctx d cur n).1.res with
        | ok data =>
          simp only [diskThen]
          split
          · trivial
          · rename_i hl
            rw [h2 data hr]
            unfold fsAppend
            cases env.fault w.tick with
            | true => trivial
            | false =>
              have := ih (remaining - n) (cur + data.length)
                ⟨w.fs.setFile p ((w.fs.file p).map (· ++ data)), w.tick + 1⟩ (by omega) (by omega)
              simpa using this
        | err => trivial
        | ub => rw [hr] at h1; exact h1
        | hang => rw [hr] at h1; exact h1
      · rw [(C31_only_streams env.ctx hty cur n 0 .set).1]
        trivial

theorem fsOp_defined (env : ExportEnv) (w : Disk) (f : Fs → Option (α × Fs)) :
    (fsOp env w f).2.Defined := by
  rcases fsOp_cases env w f with h | ⟨a, fs, _, _, h⟩ <;> rw [h] <;> trivial

theorem diskThen_defined {r : Disk × Res α} {f : Disk → α → Disk × Res β} (h : r.2.Defined)
    (hf : ∀ w a, r = (w, .ok a) → (f w a).2.Defined) : (diskThen r f).2.Defined := by
  obtain ⟨w, x⟩ := r
  cases x with
  | ok a => exact hf w a rfl
  | err => trivial
  | ub => exact h
  | hang => exact h

theorem writeItemData_defined {env : ExportEnv} (hctx : WellFormedCtx env.ctx) {d : DirEntry}
    (hd : ItemFits env.ctx d) (p : Path) (w : Disk) : (writeItemData env d p w).2.Defined := by
  unfold writeItemData
  refine diskThen_defined (fsOp_defined _ _ _) ?_
  intro w1 b _
  split
  · trivial
  · refine diskThen_defined (fsOp_defined _ _ _) ?_
    intro w2 _ _
    refine diskThen_defined (copyLoop_defined hctx hd _ _ _ _ _ (Nat.le_refl _) (Nat.le_refl _)) ?_
    intro w3 _ _
    refine diskThen_defined (fsOp_defined _ _ _) ?_
    intro _ _ _
    trivial

/-! ### C46: the fallback name -/

/-- C46 (partial): exactly when the name of the directory of an item is written outside of its
  buffer: the first choice exists already and is shorter than 9 characters.  Missing: that it
  never happens. -/
theorem C46_fallback_name_partial (env : ExportEnv) (d : DirEntry) (index : Nat) (dir : Path)
    (w : Disk) :
    (makeItemDirectory env d index dir w).2 = .ub ↔
      env.fault w.tick = false ∧ ∃ raw name, env.utf8Name d = some raw ∧
        env.sanitize raw = some name ∧ w.fs.has (resolve dir name) = true ∧ name.length < 9 := by
  unfold makeItemDirectory
  cases h1 : env.utf8Name d with
  | none => simp
  | some raw =>
    cases h2 : env.sanitize raw with
    | none => simp [h2]
    | some name =>
      simp only []
      have hR : (env.fault w.tick = false ∧ ∃ raw' name', some raw = some raw' ∧
          env.sanitize raw' = some name' ∧ w.fs.has (resolve dir name') = true ∧
          name'.length < 9) ↔ (env.fault w.tick = false ∧ w.fs.has (resolve dir name) = true ∧
          name.length < 9) := by
        constructor
        · rintro ⟨h0, _, _, h5, h3, h4⟩
          cases h5
          rw [h2] at h3; cases h3
          exact ⟨h0, h4⟩
        · rintro ⟨h0, h3⟩
          exact ⟨h0, raw, name, rfl, h2, h3⟩
      rw [hR, h2]
      simp only []
      have hmk : ∀ (w1 : Disk) (n : Bytes), (diskThen (fsMkdir env w1 (resolve dir n))
          fun w _ => (w, Res.ok (resolve dir n))).2 ≠ .ub := by
        intro w1 n h
        have := diskThen_defined (f := fun w (_ : Unit) => (w, Res.ok (resolve dir n)))
          (fsOp_defined env w1 fun fs =>
            if fs.has (resolve dir n) ∨ resolve dir n = [] ∨ ¬ fs.dir (resolve dir n).dropLast
            then none else some ((), fs.addDir (resolve dir n))) (fun _ _ _ => trivial)
        have h' : (diskThen (fsOp env w1 fun fs =>
            if fs.has (resolve dir n) ∨ resolve dir n = [] ∨ ¬ fs.dir (resolve dir n).dropLast
            then none else some ((), fs.addDir (resolve dir n)))
            fun w _ => (w, Res.ok (resolve dir n))).2 = .ub := h
        rw [h'] at this
        exact this
      rcases fsOp_cases env w fun fs => some (fs.has (resolve dir name), fs) with
        h | ⟨a, fs, h0, h3, h4⟩
      · have hf : env.fault w.tick = true := by
          cases hf : env.fault w.tick with
          | true => rfl
          | false => rw [fsOp_intro hf rfl] at h; cases h
        unfold fsExists
        rw [h, hf]
        simp [diskThen]
      · simp only [Option.some.injEq, Prod.mk.injEq] at h3
        unfold fsExists
        rw [h4, h0, ← h3.1]
        simp only [diskThen, pureStep]
        cases hh : w.fs.has (resolve dir name) with
        | false =>
          simp only [Bool.false_eq_true, if_false, false_and, and_false, iff_false]
          exact hmk _ _
        | true =>
          simp only [if_true, true_and]
          rw [← fallbackName_ub name index]
          cases hf : fallbackName name index with
          | ok n =>
            simp only [reduceCtorEq, iff_false]
            exact hmk _ _
          | err => simp
          | ub => simp
          | hang => simp

theorem makeItemDirectory_no_hang (env : ExportEnv) (d : DirEntry) (index : Nat) (dir : Path)
    (w : Disk) (h : (makeItemDirectory env d index dir w).2 ≠ .ub) :
    (makeItemDirectory env d index dir w).2.Defined := by
  have hmk : ∀ (w1 : Disk) (n : Bytes), (diskThen (fsMkdir env w1 (resolve dir n))
      fun w _ => (w, Res.ok (resolve dir n))).2.Defined := by
    intro w1 n
    exact diskThen_defined (fsOp_defined _ _ _) (fun _ _ _ => trivial)
  unfold makeItemDirectory at h ⊢
  cases h1 : env.utf8Name d with
  | none => trivial
  | some raw =>
    rw [h1] at h
    simp only [] at h ⊢
    cases h2 : env.sanitize raw with
    | none => trivial
    | some name =>
      rw [h2] at h
      simp only [] at h ⊢
      refine diskThen_defined (fsOp_defined _ _ _) ?_
      intro w1 found h3
      rw [diskThen_of_ok h3] at h
      unfold pureStep at h ⊢
      cases found with
      | false => exact hmk _ _
      | true =>
        simp only [if_true] at h ⊢
        cases hf : fallbackName name index with
        | ok n => exact hmk _ _
        | err => trivial
        | ub => rw [hf] at h; exact absurd rfl h
        | hang =>
          exfalso
          unfold fallbackName at hf
          simp only [] at hf
          split at hf
          · cases hf
          · split at hf
            · cases hf
            · split at hf <;> cases hf

/-- C45: if the data of an item cannot be read (and its name does not run into C46), its export
  reports an error. -/
theorem C45_failed_read_reported {env : ExportEnv} (hs : NoSeparator env.sanitize)
    (hctx : WellFormedCtx env.ctx) {content : Bytes} (hdev : env.ctx.dev = Dev.ofBytes content)
    {item : Item} (hd : ItemFits env.ctx item.entry) {fuel : Nat} {dir : Path} {index : Nat}
    {w : Disk} (ht : Tidy w.fs) (hdir : w.fs.dir dir = true)
    (hno : ¬ ∃ data, WholeData env.ctx item.entry data)
    (hub : (makeItemDirectory env item.entry index dir w).2 ≠ .ub) :
    (exportItem env (fuel + 1) dir item index w).2 = .err := by
  have hm := makeItemDirectory_no_hang env item.entry index dir w hub
  have hg := makeItemDirectory_grown hs (d := item.entry) (index := index) ht hdir
  unfold exportItem
  cases hr : makeItemDirectory env item.entry index dir w with
  | mk w1 r =>
    rw [hr] at hm
    cases r with
    | err => rfl
    | ub => exact absurd hm id
    | hang => exact absurd hm id
    | ok p =>
      obtain ⟨_, hfresh, hadd, _⟩ := hg.2 w1 p hr
      have hg1 := hg.1.1
      rw [hr] at hg1
      have hpd : w1.fs.dir p = true := by rw [hadd]; exact addDir_dir _ _
      have hdef := writeItemData_defined hctx hd p w1
      have hw := (writeItemData_grown (env := env) (d := item.entry) hg1 hpd).2
      simp only [diskThen]
      cases hr2 : writeItemData env item.entry p w1 with
      | mk w2 r2 =>
        rw [hr2] at hdef
        cases r2 with
        | err => rfl
        | ub => exact absurd hdef id
        | hang => exact absurd hdef id
        | ok b =>
          exfalso
          obtain ⟨hb, hdata⟩ := hw w2 b hr2
          rw [hadd, addDir_empty ht hfresh] at hb
          subst hb
          obtain ⟨sizes, pieces, k1, k2, k2', k3, _⟩ := hdata rfl
          exact hno ⟨_, whole_of_pieces hctx hdev hd k1 k2 k2' k3⟩

/-! ### C59: the export is complete -/

theorem NamedFrom.trans {t : Tree} {nameOf : DirEntry → Bytes} {a b c : Item}
    {ns ms : List Bytes} (h1 : NamedFrom t nameOf a ns b) (h2 : NamedFrom t nameOf b ms c) :
    NamedFrom t nameOf a (ns ++ ms) c := by
  induction h2 with
  | here => simpa using h1
  | sub _ h ih => rw [← List.append_assoc]; exact .sub ih h

theorem NamedFrom.first {t : Tree} {nameOf : DirEntry → Bytes} {a c : Item} {ns : List Bytes}
    (h : NamedFrom t nameOf a ns c) : (ns = [] ∧ c = a) ∨
      ∃ (i : Nat) (s : Item) (ms : List Bytes), getSubItem t a i = .ok s ∧
        ns = nameOf s.entry :: ms ∧ NamedFrom t nameOf s ms c := by
  induction h with
  | here => exact Or.inl ⟨rfl, rfl⟩
  | @sub names it s i h1 h2 ih =>
    refine Or.inr ?_
    rcases ih with ⟨rfl, rfl⟩ | ⟨j, x, ms, k1, rfl, k3⟩
    · exact ⟨i, s, [], h2, rfl, .here⟩
    · exact ⟨j, x, ms ++ [nameOf s.entry], k1, rfl, .sub k3 h2⟩

theorem fsMkdir_intro {env : ExportEnv} (hf : ∀ n, env.fault n = false) {w : Disk} {p : Path}
    (h1 : w.fs.has p = false) (h2 : p ≠ []) (h3 : w.fs.dir p.dropLast = true) :
    fsMkdir env w p = (⟨w.fs.addDir p, w.tick + 1⟩, .ok ()) := by
  unfold fsMkdir
  refine fsOp_intro (hf _) ?_
  rw [if_neg (by simp [h1, h2, h3])]

theorem makeItemDirectory_complete {env : ExportEnv} (hf : ∀ n, env.fault n = false)
    {d : DirEntry} {name : Bytes} (hname : (env.utf8Name d).bind env.sanitize = some name)
    (hp : PlainName name) (index : Nat) {dir : Path} {w : Disk} (hdir : w.fs.dir dir = true)
    (hno : w.fs.has (dir ++ [name]) = false) :
    ∃ tick, makeItemDirectory env d index dir w =
      (⟨w.fs.addDir (dir ++ [name]), tick⟩, .ok (dir ++ [name])) := by
  cases hu : env.utf8Name d with
  | none => rw [hu] at hname; cases hname
  | some raw =>
    rw [hu] at hname
    have hname : env.sanitize raw = some name := hname
    unfold makeItemDirectory
    rw [hu]
    simp only []
    rw [hname]
    simp only []
    rw [resolve_plain hp]
    have hex : fsExists env w (dir ++ [name]) = (⟨w.fs, w.tick + 1⟩, .ok false) := by
      unfold fsExists
      refine fsOp_intro (hf _) ?_
      rw [hno]
    rw [hex]
    simp only [diskThen, pureStep, Bool.false_eq_true, if_false]
    rw [resolve_plain hp, fsMkdir_intro hf (w := ⟨w.fs, w.tick + 1⟩) hno (by simp)
      (by rw [List.dropLast_concat]; exact hdir)]
    exact ⟨_, rfl⟩

theorem copyLoop_complete {env : ExportEnv} (hf : ∀ n, env.fault n = false)
    (hctx : WellFormedCtx env.ctx) {d : DirEntry} (hd : StreamOk env.ctx d)
    (hread : ∀ cur size : Nat, size ≤ 2 ^ 63 - 1 →
      ∃ data, (streamRead env.ctx d cur size).1.res = .ok data) (p : Path) :
    ∀ (fuel remaining cur : Nat) (w : Disk), remaining ≤ fuel → cur + remaining = d.size →
      ∃ w', copyLoop env d p fuel remaining cur w = (w', .ok ()) := by
  intro fuel
  induction fuel with
  | zero =>
    intro remaining cur w h _
    unfold copyLoop
    rw [if_pos (by omega)]
    exact ⟨_, rfl⟩
  | succ fuel ih =>
    intro remaining cur w h hsz
    unfold copyLoop
    split
    · exact ⟨_, rfl⟩
    · simp only []
      generalize hn : (if exportBufferSize > remaining then remaining else exportBufferSize) = n
      have hle : n ≤ remaining ∧ 0 < n := by rw [← hn]; unfold exportBufferSize; split <;> omega
      have hfit := hd.fits.size
      obtain ⟨data, hr⟩ := hread cur n (by omega)
      have h1 := (C25_counts_clamped hctx hd cur n (by omega)).2.1 data hr
      have hl : data.length = n := by omega
      have h2 := (C26_offset_advances hctx hd cur n).1 data hr
      rw [hr, h2]
      simp only [diskThen]
      rw [if_neg (by simp [hl])]
      have hap : fsAppend env w p data =
          (⟨w.fs.setFile p ((w.fs.file p).map (· ++ data)), w.tick + 1⟩, .ok ()) := by
        unfold fsAppend
        rw [if_neg (by rw [hf]; decide)]
      rw [hap]
      simp only []
      have := ih (remaining - n) (cur + data.length)
        ⟨w.fs.setFile p ((w.fs.file p).map (· ++ data)), w.tick + 1⟩ (by omega) (by omega)
      simpa using this

theorem writeItemData_complete {env : ExportEnv} (hf : ∀ n, env.fault n = false)
    (hctx : WellFormedCtx env.ctx) {d : DirEntry} (hd : ItemFits env.ctx d)
    (hread : d.size = 0 ∨ ∀ cur size : Nat, size ≤ 2 ^ 63 - 1 →
      ∃ data, (streamRead env.ctx d cur size).1.res = .ok data) {dir : Path} {w : Disk}
    (hdir : w.fs.dir dir = true) (hno : w.fs.has (dir ++ [dataName]) = false) :
    ∃ w', writeItemData env d dir w = (w', .ok true) := by
  unfold writeItemData
  rw [resolve_plain dataName_plain]
  have hex : fsExists env w (dir ++ [dataName]) = (⟨w.fs, w.tick + 1⟩, .ok false) := by
    unfold fsExists
    refine fsOp_intro (hf _) ?_
    rw [hno]
  rw [hex]
  simp only [diskThen, Bool.false_eq_true, if_false]
  have hcr : fsCreate env ⟨w.fs, w.tick + 1⟩ (dir ++ [dataName]) =
      (⟨w.fs.setFile (dir ++ [dataName]) (some []), w.tick + 1 + 1⟩, .ok ()) := by
    unfold fsCreate
    refine fsOp_intro (hf _) ?_
    rw [if_neg]
    simp only [List.dropLast_concat, hdir, (has_false hno).1]
    simp
  rw [hcr]
  simp only []
  have hloop : ∃ w', copyLoop env d (dir ++ [dataName]) d.size d.size 0
      ⟨w.fs.setFile (dir ++ [dataName]) (some []), w.tick + 1 + 1⟩ = (w', .ok ()) := by
    rcases hread with h0 | hread
    · rw [h0]
      unfold copyLoop
      exact ⟨_, rfl⟩
    · have hty : d.type = 2 := by
        by_cases hty : d.type = 2
        · exact hty
        · obtain ⟨data, h⟩ := hread 0 0 (by decide)
          rw [(C31_only_streams env.ctx hty _ 0 0 .set).1] at h
          cases h
      exact copyLoop_complete hf hctx ⟨hd.1, hty, hd.2⟩ hread _ _ _ 0 _ (Nat.le_refl _) (by omega)
  obtain ⟨w3, h3⟩ := hloop
  rw [h3]
  simp only []
  have hcl : fsClose env w3 = (⟨w3.fs, w3.tick + 1⟩, .ok ()) := by
    unfold fsClose
    exact fsOp_intro (hf _) rfl
  rw [hcl]
  exact ⟨_, rfl⟩

/-- All items from `it` on have their data in the directory `dir`. -/
def AllWritten (env : ExportEnv) (nameOf : DirEntry → Bytes) (fs : Fs) (dir : Path) (it : Item) :
    Prop :=
  ∀ names x, NamedFrom env.tree nameOf it names x → ∃ data,
    fs.file (dir ++ names ++ [dataName]) = some data ∧ WholeData env.ctx x.entry data

/-- Everything in `fs'` that is not in `fs` is a directory or a data file of an item from `it` on. -/
def OnlyNamed (env : ExportEnv) (nameOf : DirEntry → Bytes) (fs fs' : Fs) (dir : Path) (it : Item) :
    Prop :=
  ∀ q, fs'.has q = true → fs.has q = false → ∃ names x, NamedFrom env.tree nameOf it names x ∧
    (q = dir ++ names ∨ q = dir ++ names ++ [dataName])

theorem tidy_below {fs : Fs} (ht : Tidy fs) {r : Path} : ∀ (t : Path), t ≠ [] →
    fs.has (r ++ t) = true → fs.dir r = true := by
  have hpar : ∀ q, fs.has q = true → fs.dir q.dropLast = true := by
    intro q hq
    unfold Fs.has at hq
    rw [Bool.or_eq_true] at hq
    rcases hq with hq | hq
    · exact ht.dirs q hq
    · exact ht.files q hq
  intro t
  induction t using List.reverseRecOn with
  | nil => intro h; exact absurd rfl h
  | append_singleton t c ih =>
    intro _ h
    have h1 := hpar _ h
    rw [← List.append_assoc, List.dropLast_concat] at h1
    by_cases ht' : t = []
    · subst ht'; simpa using h1
    · exact ih ht' (has_of_dir h1)

theorem AllWritten.grown {env : ExportEnv} {nameOf : DirEntry → Bytes} {fs fs' : Fs} {dir q : Path}
    {it : Item} (h : AllWritten env nameOf fs dir it) (hg : GrownAt q fs fs') :
    AllWritten env nameOf fs' dir it := by
  intro names x hx
  obtain ⟨data, h1, h2⟩ := h names x hx
  exact ⟨data, hg.files _ _ h1, h2⟩

/-- The export of an item up to its sub items. -/
theorem exportItem_parts {env : ExportEnv} (hs : NoSeparator env.sanitize)
    (hf : ∀ n, env.fault n = false) (hctx : WellFormedCtx env.ctx) {content : Bytes}
    (hdev : env.ctx.dev = Dev.ofBytes content) {nameOf : DirEntry → Bytes} {start : Item}
    (hx : Exportable env nameOf start)
    (hfit : ∀ names it, NamedFrom env.tree nameOf start names it → ItemFits env.ctx it.entry)
    (fuel : Nat) {dir : Path} {names : List Bytes} {it : Item} {w : Disk}
    (hnm : NamedFrom env.tree nameOf start names it) (hne : names ≠ []) (ht : Tidy w.fs)
    (hdir : w.fs.dir dir = true) (hno : w.fs.has (dir ++ [nameOf it.entry]) = false)
    (index : Nat) :
    ∃ w', (∃ w1, makeItemDirectory env it.entry index dir w = (w1, .ok (dir ++ [nameOf it.entry])) ∧
        writeItemData env it.entry (dir ++ [nameOf it.entry]) w1 = (w', .ok true)) ∧
      exportItem env (fuel + 1) dir it index w =
        exportLoop env (exportItem env fuel (dir ++ [nameOf it.entry])) it
          (numberOfSubItems env.tree it) 0 w' ∧
      Tidy w'.fs ∧ GrownAt (dir ++ [nameOf it.entry]) w.fs w'.fs ∧
      (w'.fs.dir (dir ++ [nameOf it.entry]) = true ∧
        ∀ n, n ≠ dataName → w'.fs.has (dir ++ [nameOf it.entry] ++ [n]) = false) ∧
      ∃ data, w'.fs.file (dir ++ [nameOf it.entry] ++ [dataName]) = some data ∧
        WholeData env.ctx it.entry data := by
  obtain ⟨hp, _⟩ := hx.plain names it hnm hne
  obtain ⟨tick, h1⟩ := makeItemDirectory_complete hf (hx.named names it hnm hne) hp index hdir hno
  have hg := makeItemDirectory_grown hs (d := it.entry) (index := index) ht hdir
  obtain ⟨_, _, _, hg1⟩ := hg.2 _ _ h1
  have hg0 := hg.1.1
  rw [h1] at hg0
  have hfresh : ∀ n, (w.fs.addDir (dir ++ [nameOf it.entry])).has
      (dir ++ [nameOf it.entry] ++ [n]) = false := fun n => addDir_empty ht hno n
  have hpd := addDir_dir w.fs (dir ++ [nameOf it.entry])
  obtain ⟨w2, h2⟩ := writeItemData_complete hf hctx (hfit names it hnm)
    (hx.readable names it hnm hne) (w := ⟨w.fs.addDir (dir ++ [nameOf it.entry]), tick⟩) hpd
    (hfresh dataName)
  have hw := writeItemData_grown (env := env) (d := it.entry)
    (w := ⟨w.fs.addDir (dir ++ [nameOf it.entry]), tick⟩) hg0 hpd
  obtain ⟨_, hdata⟩ := hw.2 w2 true h2
  obtain ⟨sizes, pieces, k1, k2, k2', k3, k4⟩ := hdata rfl
  have hw1 := hw.1
  rw [h2] at hw1
  refine ⟨w2, ⟨_, h1, h2⟩, ?_, hw1.1, hg1.trans (hw1.2.mono (List.prefix_append _ _)),
    ⟨hw1.2.dirs _ hpd, ?_⟩, pieces.flatten, k4,
    whole_of_pieces hctx hdev (hfit names it hnm) k1 k2 k2' k3⟩
  · unfold exportItem
    rw [h1]
    simp only [diskThen]
    rw [h2]
    rfl
  · intro n hn
    cases hh : w2.fs.has (dir ++ [nameOf it.entry] ++ [n]) with
    | false => rfl
    | true =>
      have := hw1.2.fresh _ hh (hfresh n)
      have := List.IsPrefix.eq_of_length this (by simp)
      simp at this
      exact absurd this.symm hn

/-- The same, without the two parts. -/
theorem exportItem_step {env : ExportEnv} (hs : NoSeparator env.sanitize)
    (hf : ∀ n, env.fault n = false) (hctx : WellFormedCtx env.ctx) {content : Bytes}
    (hdev : env.ctx.dev = Dev.ofBytes content) {nameOf : DirEntry → Bytes} {start : Item}
    (hx : Exportable env nameOf start)
    (hfit : ∀ names it, NamedFrom env.tree nameOf start names it → ItemFits env.ctx it.entry)
    (fuel : Nat) {dir : Path} {names : List Bytes} {it : Item} {w : Disk}
    (hnm : NamedFrom env.tree nameOf start names it) (hne : names ≠ []) (ht : Tidy w.fs)
    (hdir : w.fs.dir dir = true) (hno : w.fs.has (dir ++ [nameOf it.entry]) = false)
    (index : Nat) :
    ∃ w', exportItem env (fuel + 1) dir it index w =
        exportLoop env (exportItem env fuel (dir ++ [nameOf it.entry])) it
          (numberOfSubItems env.tree it) 0 w' ∧
      Tidy w'.fs ∧ GrownAt (dir ++ [nameOf it.entry]) w.fs w'.fs ∧
      (w'.fs.dir (dir ++ [nameOf it.entry]) = true ∧
        ∀ n, n ≠ dataName → w'.fs.has (dir ++ [nameOf it.entry] ++ [n]) = false) ∧
      ∃ data, w'.fs.file (dir ++ [nameOf it.entry] ++ [dataName]) = some data ∧
        WholeData env.ctx it.entry data := by
  obtain ⟨w', _, h⟩ := exportItem_parts hs hf hctx hdev hx hfit fuel hnm hne ht hdir hno index
  exact ⟨w', h⟩

theorem exportLoop_complete {env : ExportEnv} {nameOf : DirEntry → Bytes} {start : Item}
    (hx : Exportable env nameOf start) {f : Item → Nat → Disk → Disk × Res Unit} {dir : Path}
    {names : List Bytes} {it : Item} (hnm : NamedFrom env.tree nameOf start names it)
    (hone : ∀ (i : Nat) s, getSubItem env.tree it i = .ok s → ∀ w : Disk, Tidy w.fs →
      w.fs.dir dir = true → w.fs.has (dir ++ [nameOf s.entry]) = false →
      ∃ w', f s i w = (w', .ok ()) ∧ Tidy w'.fs ∧ GrownAt (dir ++ [nameOf s.entry]) w.fs w'.fs ∧
        AllWritten env nameOf w'.fs (dir ++ [nameOf s.entry]) s ∧
        OnlyNamed env nameOf w.fs w'.fs (dir ++ [nameOf s.entry]) s) :
    ∀ (k index : Nat) (w : Disk), index + k = numberOfSubItems env.tree it → Tidy w.fs →
      w.fs.dir dir = true →
      (∀ (i : Nat) s, getSubItem env.tree it i = .ok s → index ≤ i →
        w.fs.has (dir ++ [nameOf s.entry]) = false) →
      ∃ w', exportLoop env f it k index w = (w', .ok ()) ∧ Tidy w'.fs ∧
        GrownAt dir w.fs w'.fs ∧
        (∀ (i : Nat) s, getSubItem env.tree it i = .ok s → index ≤ i →
          AllWritten env nameOf w'.fs (dir ++ [nameOf s.entry]) s) ∧
        ∀ q, w'.fs.has q = true → w.fs.has q = false → ∃ (i : Nat) (s : Item),
          getSubItem env.tree it i = .ok s ∧ ∃ ns x, NamedFrom env.tree nameOf s ns x ∧
            (q = dir ++ [nameOf s.entry] ++ ns ∨ q = dir ++ [nameOf s.entry] ++ ns ++ [dataName]) := by
  intro k
  induction k with
  | zero =>
    intro index w hk ht hdir hno
    refine ⟨w, rfl, ht, .refl _ _, ?_, fun q h1 h2 => absurd h1 (by rw [h2]; decide)⟩
    intro i s hi hle
    exfalso
    obtain ⟨e, he, _⟩ := getSubItem_ok.1 hi
    have := (List.getElem?_eq_some_iff.1 he).1
    unfold numberOfSubItems at hk
    omega
  | succ k ih =>
    intro index w hk ht hdir hno
    have hlt : index < (env.tree.kids it.node).length := by unfold numberOfSubItems at hk; omega
    have hsub : getSubItem env.tree it index = .ok (.ofEntry (env.tree.kids it.node)[index]) :=
      getSubItem_ok.2 ⟨_, List.getElem?_eq_getElem hlt, rfl⟩
    generalize Item.ofEntry (env.tree.kids it.node)[index] = s at hsub
    obtain ⟨w1, h1, h2, h3, h4, h5⟩ :=
      hone index s hsub w ht hdir (hno index s hsub (Nat.le_refl _))
    obtain ⟨w', k1, k2, k3, k4, k5⟩ := ih (index + 1) w1 (by omega) h2 (h3.dirs _ hdir) (by
      intro i x hi hle
      cases hh : w1.fs.has (dir ++ [nameOf x.entry]) with
      | false => rfl
      | true =>
        have := h3.fresh _ hh (hno i x hi (by omega))
        have := List.IsPrefix.eq_of_length this (by simp)
        simp at this
        have := hx.distinct names it hnm index i s x hsub hi this
        omega)
    refine ⟨w', ?_, k2, (h3.mono (List.prefix_append _ _)).trans k3, ?_, ?_⟩
    · unfold exportLoop pureStep
      rw [hsub]
      simp only [diskThen]
      rw [h1]
      exact k1
    · intro i x hi hle
      by_cases he : i = index
      · subst he
        rw [hsub] at hi
        cases hi
        exact h4.grown k3
      · exact k4 i x hi (by omega)
    · intro q hq hn
      cases hh : w1.fs.has q with
      | false => exact k5 q hq hh
      | true => exact ⟨index, s, hsub, h5 q hh hn⟩

theorem exportItem_complete {env : ExportEnv} (hs : NoSeparator env.sanitize)
    (hf : ∀ n, env.fault n = false) (hctx : WellFormedCtx env.ctx) {content : Bytes}
    (hdev : env.ctx.dev = Dev.ofBytes content) {nameOf : DirEntry → Bytes} {start : Item}
    (hx : Exportable env nameOf start)
    (hfit : ∀ names it, NamedFrom env.tree nameOf start names it → ItemFits env.ctx it.entry) :
    ∀ (n fuel : Nat) (dir : Path) (names : List Bytes) (it : Item) (index : Nat) (w : Disk),
      n < fuel → NestedAtMost env.tree n it → NamedFrom env.tree nameOf start names it →
      names ≠ [] → Tidy w.fs → w.fs.dir dir = true →
      w.fs.has (dir ++ [nameOf it.entry]) = false →
      ∃ w', exportItem env fuel dir it index w = (w', .ok ()) ∧ Tidy w'.fs ∧
        GrownAt (dir ++ [nameOf it.entry]) w.fs w'.fs ∧
        AllWritten env nameOf w'.fs (dir ++ [nameOf it.entry]) it ∧
        OnlyNamed env nameOf w.fs w'.fs (dir ++ [nameOf it.entry]) it := by
  -- what the first part of the export of an item adds
  have honly : ∀ {fs fs' : Fs} {p : Path} {it : Item} {data : Bytes}, Tidy fs' → GrownAt p fs fs' →
      (∀ n, n ≠ dataName → fs'.has (p ++ [n]) = false) → fs'.file (p ++ [dataName]) = some data →
      OnlyNamed env nameOf fs fs' p it := by
    intro fs fs' p it data ht hg hno hfile q hq hn
    obtain ⟨t, rfl⟩ := hg.fresh q hq hn
    refine ⟨[], it, .here, ?_⟩
    cases t with
    | nil => left; rfl
    | cons c t =>
      have hsplit : p ++ c :: t = p ++ [c] ++ t := by simp
      rw [hsplit] at hq
      by_cases hc : c = dataName
      · subst hc
        cases t with
        | nil => right; simp
        | cons b t =>
          have := ht.apart _ (tidy_below ht (b :: t) (by simp) hq)
          rw [hfile] at this
          cases this
      · have h1 := hno c hc
        cases t with
        | nil => rw [List.append_nil, h1] at hq; cases hq
        | cons b t =>
          rw [has_of_dir (tidy_below ht (b :: t) (by simp) hq)] at h1
          cases h1
  intro n
  induction n with
  | zero =>
    intro fuel dir names it index w hlt hn hnm hne ht hdir hno
    cases fuel with
    | zero => omega
    | succ fuel =>
      have hn : numberOfSubItems env.tree it = 0 := hn
      obtain ⟨w', h1, h2, h3, h4, h5⟩ := exportItem_step hs hf hctx hdev hx hfit fuel hnm hne ht
        hdir hno index
      refine ⟨w', ?_, h2, h3, ?_, by obtain ⟨data, h5, _⟩ := h5; exact honly h2 h3 h4.2 h5⟩
      · rw [h1, hn]; rfl
      · intro ns x hns
        rcases NamedFrom.first hns with ⟨rfl, rfl⟩ | ⟨i, s, ms, k1, _, _⟩
        · simpa using h5
        · exfalso
          obtain ⟨e, he, _⟩ := getSubItem_ok.1 k1
          have := (List.getElem?_eq_some_iff.1 he).1
          unfold numberOfSubItems at hn
          omega
  | succ n ih =>
    intro fuel dir names it index w hlt hn hnm hne ht hdir hno
    cases fuel with
    | zero => omega
    | succ fuel =>
      obtain ⟨w1, h1, h2, h3, h4, h5⟩ := exportItem_step hs hf hctx hdev hx hfit fuel hnm hne ht
        hdir hno index
      have hpd : w1.fs.dir (dir ++ [nameOf it.entry]) = true := h4.1
      obtain ⟨w', k1, k2, k3, k4, k5⟩ := exportLoop_complete hx
        (f := exportItem env fuel (dir ++ [nameOf it.entry])) hnm
        (fun i s hi w ht hd hno => ih fuel _ _ s i w (by omega) (hn i s hi) (.sub hnm hi) (by simp)
          ht hd hno)
        (numberOfSubItems env.tree it) 0 w1 (by omega) h2 hpd
        (fun i s hi _ => h4.2 _ (hx.plain _ s (.sub hnm hi) (by simp)).2)
      refine ⟨w', h1.trans k1, k2, h3.trans k3, ?_, ?_⟩
      · intro ns x hns
        rcases NamedFrom.first hns with ⟨rfl, rfl⟩ | ⟨i, s, ms, j1, rfl, j3⟩
        · obtain ⟨data, h5, h6⟩ := h5
          exact ⟨data, by simpa using k3.files _ _ h5, h6⟩
        · obtain ⟨data, h5, h6⟩ := k4 i s j1 (by omega) ms x j3
          exact ⟨data, by simpa using h5, h6⟩
      · intro q hq hnq
        cases hh : w1.fs.has q with
        | true =>
          obtain ⟨data, h5, _⟩ := h5
          exact honly h2 h3 h4.2 h5 q hh hnq
        | false =>
          obtain ⟨i, s, j1, ns, x, j2, j3⟩ := k5 q hq hh
          refine ⟨[nameOf s.entry] ++ ns, x, NamedFrom.trans (NamedFrom.sub .here j1) j2, ?_⟩
          simpa only [List.append_assoc] using j3

/-- The hierarchy of items is not deeper than there are directory entries. -/
theorem depth_lt {list : List DirEntry} {cmp : Bytes → Bytes → Option Bool}
    (hnd : (list.map (·.id)).Nodup) {t : Tree} {m : List Nat}
    (h : (createTree list cmp).res = .ok (some (t, m))) {p : List Nat} {it : Item}
    (hp : itemAt t p = some it) : p.length < list.length := by
  obtain ⟨hmem, huniq⟩ := C16_no_item_twice list cmp hnd t m h
  have hpre : ∀ k, ∃ x, itemAt t (p.take k) = some x := by
    intro k
    have key : ∀ (q r : List Nat) (a b : Item), itemFrom t a (q ++ r) = some b →
        ∃ x, itemFrom t a q = some x := by
      intro q
      induction q with
      | nil => intro r a b _; exact ⟨a, rfl⟩
      | cons i q ih =>
        intro r a b hh
        simp only [List.cons_append, itemFrom] at hh ⊢
        cases hg : getSubItem t a i with
        | ok c => rw [hg] at hh; exact ih r c b hh
        | err => rw [hg] at hh; cases hh
        | ub => rw [hg] at hh; cases hh
        | hang => rw [hg] at hh; cases hh
    exact key _ (p.drop k) _ it (by rw [List.take_append_drop]; exact hp)
  choose f hf using hpre
  have hsub : (List.range (p.length + 1)).map (fun k => (f k).entry.id) ⊆ list.map (·.id) := by
    intro i hi
    obtain ⟨k, _, rfl⟩ := List.mem_map.1 hi
    exact List.mem_map.2 ⟨_, hmem _ _ (hf k), rfl⟩
  have hnd2 : ((List.range (p.length + 1)).map (fun k => (f k).entry.id)).Nodup := by
    refine List.Nodup.map_on ?_ List.nodup_range
    intro a ha b hb hab
    have := congrArg List.length (huniq _ _ _ _ (hf a) (hf b) hab)
    rw [List.mem_range] at ha hb
    rw [List.length_take, List.length_take] at this
    omega
  have := hnd2.length_le_of_subset hsub
  simp at this
  omega

theorem nestedAtMost_of_depth {list : List DirEntry} {cmp : Bytes → Bytes → Option Bool}
    (hnd : (list.map (·.id)).Nodup) {t : Tree} {m : List Nat}
    (h : (createTree list cmp).res = .ok (some (t, m))) : ∀ (n : Nat) (p : List Nat) (it : Item),
    itemAt t p = some it → list.length ≤ p.length + n + 1 → NestedAtMost t n it := by
  intro n
  induction n with
  | zero =>
    intro p it hp hl
    show (t.kids it.node).length = 0
    by_contra hne
    have hlt : 0 < (t.kids it.node).length := by omega
    have hs : getSubItem t it (0 : Nat) = .ok (.ofEntry (t.kids it.node)[0]) :=
      getSubItem_ok.2 ⟨_, List.getElem?_eq_getElem hlt, rfl⟩
    have := depth_lt hnd h ((itemFrom_snoc t p _ 0 _).2 ⟨it, hp, hs⟩)
    simp at this
    omega
  | succ n ih =>
    intro p it hp hl i s hs
    refine ih (p ++ [i]) s ((itemFrom_snoc t p _ i _).2 ⟨it, hp, hs⟩) ?_
    simp
    omega

/-- C59 (partial): the items of a file whose names are plain and distinct among siblings, and
  whose data can be read, are all exported if no operation on the file system fails: the export
  succeeds, the data file at the path made of the names of an item and its parents has the
  whole data of the item, and nothing else is made.  The recursion is not deeper than there are directory entries.  Missing:
  storages with a size (`C59_sized_storage_violated`) and colliding names. -/
theorem C59_export_complete_partial {env : ExportEnv} {list : List DirEntry}
    {cmp : Bytes → Bytes → Option Bool} {m : List Nat} (hnd : (list.map (·.id)).Nodup)
    (htree : (createTree list cmp).res = .ok (some (env.tree, m)))
    (hs : NoSeparator env.sanitize) (hf : ∀ n, env.fault n = false)
    (hctx : WellFormedCtx env.ctx) {content : Bytes} (hdev : env.ctx.dev = Dev.ofBytes content)
    {nameOf : DirEntry → Bytes} (hx : Exportable env nameOf ⟨none, env.tree.root⟩)
    (hfit : ∀ p it, itemAt env.tree p = some it → ItemFits env.ctx it.entry) {fuel : Nat}
    (hfuel : list.length ≤ fuel)
    {dir : Path} {w : Disk} (ht : Tidy w.fs) (hno : w.fs.has dir = false)
    (hparent : w.fs.dir dir.dropLast = true) :
    ∃ w', exportFile env fuel dir w = (w', .ok ()) ∧
      (∀ names it, NamedFrom env.tree nameOf ⟨none, env.tree.root⟩ names it → names ≠ [] →
        ∃ data, w'.fs.file (dir ++ names ++ [dataName]) = some data ∧
          WholeData env.ctx it.entry data) ∧
      ∀ q, w'.fs.has q = true → w.fs.has q = false → q = dir ∨
        ∃ names it, NamedFrom env.tree nameOf ⟨none, env.tree.root⟩ names it ∧ names ≠ [] ∧
          (q = dir ++ names ∨ q = dir ++ names ++ [dataName]) := by
  have hne : dir ≠ [] := by
    rintro rfl
    rw [has_of_dir ht.root] at hno; cases hno
  have hpath : ∀ names it, NamedFrom env.tree nameOf ⟨none, env.tree.root⟩ names it →
      ∃ p, p.length = names.length ∧ itemAt env.tree p = some it := by
    intro names it h
    induction h with
    | here => exact ⟨[], rfl, rfl⟩
    | @sub names it s i _ h2 ih =>
      obtain ⟨p, hl, hp⟩ := ih
      exact ⟨p ++ [i], by simp [hl], (itemFrom_snoc _ p _ i _).2 ⟨it, hp, h2⟩⟩
  have hfit' : ∀ names it, NamedFrom env.tree nameOf ⟨none, env.tree.root⟩ names it →
      ItemFits env.ctx it.entry := by
    intro names it h
    obtain ⟨p, _, hp⟩ := hpath names it h
    exact hfit _ _ hp
  obtain ⟨hg1, hg2⟩ := mkdir_tidy ht hno hparent
  have hempty := fun n => addDir_empty ht hno n
  obtain ⟨w', k1, k2, k3, k4, k5⟩ := exportLoop_complete hx (f := exportItem env fuel dir) (dir := dir)
    NamedFrom.here
    (fun i s hi w ht hd hno =>
      exportItem_complete hs hf hctx hdev hx hfit' (list.length - 2) fuel dir _ s i w
        (by
          have hp : itemAt env.tree [i] = some s :=
            (itemFrom_snoc _ [] _ i _).2 ⟨_, rfl, hi⟩
          have := depth_lt hnd htree hp
          simp at this
          omega)
        (by
          have hp : itemAt env.tree [i] = some s :=
            (itemFrom_snoc _ [] _ i _).2 ⟨_, rfl, hi⟩
          exact nestedAtMost_of_depth hnd htree _ [i] s hp (by simp; omega))
        (.sub .here hi) (by simp) ht hd hno)
    (numberOfSubItems env.tree ⟨none, env.tree.root⟩) 0 ⟨w.fs.addDir dir, w.tick + 1⟩ (by omega)
    hg1 (addDir_dir _ _) (fun i s _ _ => hempty _)
  refine ⟨w', ?_, ?_, ?_⟩
  · unfold exportFile
    rw [fsMkdir_intro hf hno hne hparent]
    exact k1
  rotate_left
  · intro q hq hnq
    cases hh : (w.fs.addDir dir).has q with
    | true =>
      left
      by_contra hc
      simp only [Fs.has, Fs.addDir, if_neg hc] at hh
      simp only [Fs.has] at hnq
      rw [hnq] at hh
      cases hh
    | false =>
      right
      obtain ⟨i, s, j1, ns, x, j2, j3⟩ := k5 q hq hh
      refine ⟨[nameOf s.entry] ++ ns, x, NamedFrom.trans (NamedFrom.sub .here j1) j2, by simp, ?_⟩
      simpa only [List.append_assoc] using j3
  · intro names it h hn
    rcases NamedFrom.first h with ⟨rfl, _⟩ | ⟨i, s, ms, j1, rfl, j3⟩
    · exact absurd rfl hn
    · obtain ⟨data, h5, h6⟩ := k4 i s j1 (by omega) ms it j3
      exact ⟨data, by simpa using h5, h6⟩

/-! ### An example -/

/-- An entry with a name, for the sample file of `Props/Stream.lean`. -/
def exportEntry (id type : Nat) (name : Bytes) (next sub start size : Nat) : DirEntry :=
  { id, name, type, prev := 0xffffffff, next, sub, created := 0, modified := 0, start, size }

/-- The root has a stream `a` and a storage `b`, which has a stream `a`. -/
def exportDir : List DirEntry :=
  [exportEntry 0 5 [0x52] 0xffffffff 1 0 0, exportEntry 1 2 [0x61] 2 0xffffffff 2 20,
   exportEntry 2 1 [0x62] 0xffffffff 3 0 0, exportEntry 3 2 [0x61] 0xffffffff 0xffffffff 3 7]

/-- The tree of a directory (the root alone if there is none). -/
def treeOf (list : List DirEntry) : Tree :=
  match (createTree list cmpNone).res with
  | .ok (some (t, _)) => t
  | _ => ⟨exportEntry 0 5 [] 0 0 0 0, fun _ => []⟩

/-- Names are taken as they are. -/
def exportEnv (list : List DirEntry) : ExportEnv where
  ctx := sampleCtx
  tree := treeOf list
  utf8Name d := some d.name
  sanitize b := if (0x2f : UInt8) ∈ b then none else some b
  fault _ := false

/-- A file system with a root directory only. -/
def emptyDisk : Disk := ⟨⟨fun p => decide (p = []), fun _ => none⟩, 0⟩

theorem emptyDisk_tidy : Tidy emptyDisk.fs := by
  refine ⟨rfl, ?_, fun p h => (by cases h), fun _ _ => rfl⟩
  intro p hp
  have : p = [] := of_decide_eq_true hp
  subst this; rfl

theorem exportEnv_noSep (list : List DirEntry) : NoSeparator (exportEnv list).sanitize := by
  intro raw name h
  simp only [exportEnv] at h
  split at h
  · cases h
  · cases h; assumption

/-- The directory `x` for the export. -/
def exportPath : Path := [[0x78]]

example : GrownAt exportPath emptyDisk.fs
    (exportFile (exportEnv exportDir) 4 exportPath emptyDisk).1.fs :=
  C58_export_stays_inside (exportEnv_noSep _) 4 _ _ emptyDisk_tidy

example : (exportFile (exportEnv exportDir) 4 exportPath emptyDisk).2 = .ok () := by
  decide +kernel
example : (exportFile (exportEnv exportDir) 4 exportPath emptyDisk).1.fs.file
    [[0x78], [0x62], [0x61], dataName] = some [128, 129, 130, 131, 120, 121, 122] := by
  decide +kernel
example : (streamRead sampleCtx (exportEntry 3 2 [0x61] 0xffffffff 0xffffffff 3 7) 0 7).1.res =
    .ok [128, 129, 130, 131, 120, 121, 122] := by decide +kernel

theorem exportDir_items {names : List Bytes} {it : Item}
    (h : NamedFrom (treeOf exportDir) (·.name) ⟨none, (treeOf exportDir).root⟩ names it) :
    (it = ⟨none, (treeOf exportDir).root⟩ ∧ names = []) ∨
    it = .ofEntry (exportEntry 1 2 [0x61] 2 0xffffffff 2 20) ∨
    it = .ofEntry (exportEntry 2 1 [0x62] 0xffffffff 3 0 0) ∨
    it = .ofEntry (exportEntry 3 2 [0x61] 0xffffffff 0xffffffff 3 7) := by
  induction h with
  | here => exact Or.inl ⟨rfl, rfl⟩
  | @sub names it s i h1 h2 ih =>
    obtain ⟨e, he, rfl⟩ := getSubItem_ok.1 h2
    have hm := List.mem_of_getElem? he
    have k0 : (treeOf exportDir).kids none = [exportEntry 1 2 [0x61] 2 0xffffffff 2 20,
      exportEntry 2 1 [0x62] 0xffffffff 3 0 0] := by decide +kernel
    have k1 : (treeOf exportDir).kids (some 1) = [] := by decide +kernel
    have k2 : (treeOf exportDir).kids (some 2) =
      [exportEntry 3 2 [0x61] 0xffffffff 0xffffffff 3 7] := by decide +kernel
    have k3 : (treeOf exportDir).kids (some 3) = [] := by decide +kernel
    rcases ih with ⟨rfl, _⟩ | rfl | rfl | rfl
    · rw [k0] at hm
      rcases List.mem_cons.1 hm with rfl | hm
      · exact Or.inr (Or.inl rfl)
      · rcases List.mem_cons.1 hm with rfl | hm
        · exact Or.inr (Or.inr (Or.inl rfl))
        · cases hm
    · have hm : e ∈ (treeOf exportDir).kids (some 1) := hm
      rw [k1] at hm; cases hm
    · have hm : e ∈ (treeOf exportDir).kids (some 2) := hm
      rw [k2] at hm
      rcases List.mem_cons.1 hm with rfl | hm
      · exact Or.inr (Or.inr (Or.inr rfl))
      · cases hm
    · have hm : e ∈ (treeOf exportDir).kids (some 3) := hm
      rw [k3] at hm; cases hm

theorem exportDir_exportable :
    Exportable (exportEnv exportDir) (·.name) ⟨none, (exportEnv exportDir).tree.root⟩ := by
  refine ⟨?_, ?_, ?_, ?_⟩
  · intro names it h hn
    rcases exportDir_items h with ⟨_, rfl⟩ | rfl | rfl | rfl
    · exact absurd rfl hn
    · rfl
    · rfl
    · rfl
  · intro names it h hn
    rcases exportDir_items h with ⟨_, rfl⟩ | rfl | rfl | rfl
    · exact absurd rfl hn
    · decide
    · decide
    · decide
  · intro names it h i j a b ha hb hab
    have hlt : ∀ (i : Nat) a, getSubItem (treeOf exportDir) it i = .ok a →
        i < ((treeOf exportDir).kids it.node).length ∧
        ((treeOf exportDir).kids it.node)[i]? = some a.entry := by
      intro i a h
      obtain ⟨e, he, rfl⟩ := getSubItem_ok.1 h
      exact ⟨(List.getElem?_eq_some_iff.1 he).1, he⟩
    obtain ⟨hi, hia⟩ := hlt i a ha
    obtain ⟨hj, hjb⟩ := hlt j b hb
    have key : ∀ node ∈ [none, some 1, some 2, some 3],
        (((treeOf exportDir).kids node).map (·.name)).Nodup := by decide +kernel
    have hmem : it.node ∈ [none, some 1, some 2, some 3] := by
      rcases exportDir_items h with ⟨rfl, _⟩ | rfl | rfl | rfl <;> decide
    have hnd := key _ hmem
    by_contra hne
    have h1 : (((treeOf exportDir).kids it.node).map (·.name))[i]? = some a.entry.name := by
      rw [List.getElem?_map, hia]; rfl
    have h2 : (((treeOf exportDir).kids it.node).map (·.name))[j]? = some b.entry.name := by
      rw [List.getElem?_map, hjb]; rfl
    rcases Nat.lt_or_gt_of_ne hne with hl | hl
    · exact (List.nodup_iff_getElem?_ne_getElem?.1 hnd i j hl (by simpa using hj))
        (by rw [h1, h2]; exact congrArg some hab)
    · exact (List.nodup_iff_getElem?_ne_getElem?.1 hnd j i hl (by simpa using hi))
        (by rw [h1, h2]; exact congrArg some hab.symm)
  · intro names it h hn
    rcases exportDir_items h with ⟨_, rfl⟩ | rfl | rfl | rfl
    · exact absurd rfl hn
    · refine Or.inr fun cur size hsz => ?_
      refine C24_covered_stream_readable (content := sampleContent) (ids := [2, 1])
        (last := 0xfffffffe) sampleCtx_wf ⟨⟨by decide, by decide⟩, rfl, by decide⟩
        (sample_nested _) rfl (.cons rfl (.cons rfl (.nil _))) (by decide) (by decide) ?_ cur size hsz
      decide +kernel
    · exact Or.inl rfl
    · refine Or.inr fun cur size hsz => ?_
      refine C24_covered_stream_readable (content := sampleContent) (ids := [3, 1])
        (last := 0xfffffffe) sampleCtx_wf ⟨⟨by decide, by decide⟩, rfl, by decide⟩
        (sample_nested _) rfl (.cons rfl (.cons rfl (.nil _))) (by decide) (by decide) ?_ cur size hsz
      decide +kernel

/-- The hypotheses of C59 are met by the sample. -/
example : ∃ w', exportFile (exportEnv exportDir) 4 exportPath emptyDisk = (w', .ok ()) ∧
    (∀ names it, NamedFrom (treeOf exportDir) (·.name) ⟨none, (treeOf exportDir).root⟩ names it →
      names ≠ [] → ∃ data, w'.fs.file (exportPath ++ names ++ [dataName]) = some data ∧
        WholeData sampleCtx it.entry data) ∧
    ∀ q, w'.fs.has q = true → emptyDisk.fs.has q = false → q = exportPath ∨
      ∃ names it, NamedFrom (treeOf exportDir) (·.name) ⟨none, (treeOf exportDir).root⟩ names it ∧
        names ≠ [] ∧ (q = exportPath ++ names ∨ q = exportPath ++ names ++ [dataName]) := by
  refine C59_export_complete_partial (env := exportEnv exportDir) (list := exportDir)
    (cmp := cmpNone) (m := [0, 3, 2, 1]) (by decide) ?_ (exportEnv_noSep _) (fun _ => rfl)
    sampleCtx_wf (content := sampleContent) rfl exportDir_exportable ?_ (by decide) emptyDisk_tidy
    (by decide) (by decide)
  · rfl
  · intro p it hp
    have hd := (C16_no_item_twice exportDir cmpNone (by decide) _ [0, 3, 2, 1] rfl).1 p it hp
    have : ∀ d ∈ exportDir, d.start < 2 ^ 32 ∧ d.size < 2 ^ 32 ∧
      d.size ≤ unitOf sampleCtx d * 2147483647 := by decide
    obtain ⟨h1, h2, h3⟩ := this _ hd
    exact ⟨⟨h1, h2⟩, h3⟩

/-- C45 applies to the sample: the storage `b` with its stream is exported. -/
example : ∃ name data, emptyDisk.fs.has ([] ++ [name]) = false ∧
    (exportItem (exportEnv exportDir) 2 [] (.ofEntry (exportEntry 3 2 [0x61] 0xffffffff 0xffffffff
      3 7)) 0 emptyDisk).1.fs.file ([] ++ [name, dataName]) = some data ∧ data.length = 7 ∧
    ∀ j, j < data.length → data[j]? = streamByte sampleContent sampleCtx
      (exportEntry 3 2 [0x61] 0xffffffff 0xffffffff 3 7) j :=
  C45_export_bytes (env := exportEnv exportDir) (content := sampleContent) (exportEnv_noSep _)
    sampleCtx_wf rfl ⟨⟨by decide, by decide⟩, by decide⟩ (sample_nested _) emptyDisk_tidy rfl
    (Prod.ext rfl (by decide +kernel))

/-- A stream that starts in a sector that the table does not have. -/
example : (exportItem (exportEnv exportDir) 2 [] (.ofEntry (exportEntry 3 2 [0x61] 0xffffffff
    0xffffffff 9 20)) 0 emptyDisk).2 = .err := by
  refine C45_failed_read_reported (content := sampleContent) (exportEnv_noSep _) sampleCtx_wf rfl
    ⟨⟨by decide, by decide⟩, by decide⟩ emptyDisk_tidy rfl ?_ (by decide +kernel)
  rintro ⟨data, h⟩
  have : (streamRead sampleCtx (exportEntry 3 2 [0x61] 0xffffffff 0xffffffff 9 20) 0 20).1.res =
    .err := by decide +kernel
  unfold WholeData at h
  rw [if_neg (by decide)] at h
  have h : (streamRead sampleCtx (exportEntry 3 2 [0x61] 0xffffffff 0xffffffff 9 20) 0 20).1.res =
    .ok data := h
  rw [this] at h
  cases h

/-- C46 is violated: two siblings with the same short name, or an item with the name `.`, make the
  tool write outside of the buffer of the name. -/
theorem C46_fallback_name_violated :
    (exportFile (exportEnv [exportEntry 0 5 [0x52] 0xffffffff 1 0 0,
      exportEntry 1 2 [0x61] 2 0xffffffff 2 20,
      exportEntry 2 2 [0x61] 0xffffffff 0xffffffff 2 20]) 3 exportPath emptyDisk).2 = .ub ∧
    (exportFile (exportEnv [exportEntry 0 5 [0x52] 0xffffffff 1 0 0,
      exportEntry 1 2 [0x2e] 0xffffffff 0xffffffff 2 20]) 2 exportPath emptyDisk).2 = .ub := by
  refine ⟨by decide +kernel, by decide +kernel⟩

/-- C59 is violated: the sub items of a storage whose size field is not zero are not exported,
  although the export reports success. -/
theorem C59_sized_storage_violated :
    (exportFile (exportEnv [exportEntry 0 5 [0x52] 0xffffffff 1 0 0,
      exportEntry 1 1 [0x62] 0xffffffff 2 0 5,
      exportEntry 2 2 [0x61] 0xffffffff 0xffffffff 2 20]) 3 exportPath emptyDisk).2 = .ok () ∧
    (exportFile (exportEnv [exportEntry 0 5 [0x52] 0xffffffff 1 0 0,
      exportEntry 1 1 [0x62] 0xffffffff 2 0 5,
      exportEntry 2 2 [0x61] 0xffffffff 0xffffffff 2 20]) 3 exportPath emptyDisk).1.fs.has
        [[0x78], [0x62], [0x61]] = false := by
  refine ⟨by decide +kernel, by decide +kernel⟩

/-- Two siblings with the same long name: the second one is exported as `Item00002`. -/
example : (exportFile (exportEnv [exportEntry 0 5 [0x52] 0xffffffff 1 0 0,
      exportEntry 1 2 [1, 2, 3, 4, 5, 6, 7, 8, 9] 2 0xffffffff 2 20,
      exportEntry 2 2 [1, 2, 3, 4, 5, 6, 7, 8, 9] 0xffffffff 0xffffffff 3 7]) 3 exportPath
      emptyDisk).1.fs.file
    [[0x78], [0x49, 0x74, 0x65, 0x6d, 0x30, 0x30, 0x30, 0x30, 0x32], dataName] =
      some [128, 129, 130, 131, 120, 121, 122] := by
  decide +kernel

end Olecf.Props
