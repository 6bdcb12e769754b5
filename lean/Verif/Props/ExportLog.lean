import Verif.Props.ExportFaithful
import Verif.Spec.ExportLog

/-
  C110: the messages of an export tell what was made and whether anything failed.
-/

namespace Olecf.Props

open Olecf Olecf.Spec

/-! ### The messages do not change the export -/

theorem saying_fst (l : List ExportMessage) (r : Logged α) : (saying l r).1 = r.1 := rfl

theorem logThen_fst {r : Logged α} {f : Disk → α → Logged β} {g : Disk → α → Disk × Res β}
    (h : ∀ w a, (f w a).1 = g w a) : (logThen r f).1 = diskThen r.1 g := by
  obtain ⟨⟨w, _ | _ | _ | _⟩, l⟩ := r
  · exact h _ _
  all_goals rfl

theorem makeItemDirectoryLog_fst (env : ExportEnv) (d : DirEntry) (index : Nat) (dir : Path) (w : Disk) :
    (makeItemDirectoryLog env d index dir w).1 = makeItemDirectory env d index dir w := by
  unfold makeItemDirectoryLog makeItemDirectory
  rw [saying_fst]
  cases env.utf8Name d with
  | none => rfl
  | some raw =>
    dsimp only
    cases env.sanitize raw with
    | none => rfl
    | some name =>
      refine logThen_fst fun w found => ?_
      refine logThen_fst fun w name => ?_
      rw [saying_fst]
      exact logThen_fst fun w _ => rfl

theorem writeItemDataLog_fst (env : ExportEnv) (d : DirEntry) (dir : Path) (w : Disk) :
    (writeItemDataLog env d dir w).1 = writeItemData env d dir w := by
  unfold writeItemDataLog writeItemData
  refine logThen_fst fun w found => ?_
  cases found with
  | true => rfl
  | false =>
    refine logThen_fst fun w _ => ?_
    refine logThen_fst fun w _ => ?_
    exact logThen_fst fun w _ => rfl

theorem exportLoopLog_fst (env : ExportEnv) {f : Item → Nat → Disk → Logged Unit}
    {g : Item → Nat → Disk → Disk × Res Unit} (h : ∀ s i w, (f s i w).1 = g s i w) (it : Item) (count : Nat) :
    ∀ n index w, (exportLoopLog env f it count n index w).1 = exportLoop env g it n index w := by
  intro n
  induction n with
  | zero => intro index w; rfl
  | succ n ih =>
    intro index w
    unfold exportLoopLog exportLoop
    refine logThen_fst fun w sub => ?_
    rw [← h]
    rcases f sub index w with ⟨⟨w, _ | _ | _ | _⟩, l⟩
    · exact ih _ _
    · exact ih _ _
    all_goals rfl

theorem exportItemLog_fst (env : ExportEnv) : ∀ (fuel : Nat) (dir : Path) (it : Item) (index : Nat) (w : Disk),
    (exportItemLog env fuel dir it index w).1 = exportItem env fuel dir it index w := by
  intro fuel
  induction fuel with
  | zero => intro dir it index w; rfl
  | succ fuel ih =>
    intro dir it index w
    unfold exportItemLog exportItem
    rw [← makeItemDirectoryLog_fst]
    refine logThen_fst fun w itemDir => ?_
    rw [← writeItemDataLog_fst]
    refine logThen_fst fun w written => ?_
    cases written with
    | false => rfl
    | true => exact exportLoopLog_fst env (ih itemDir) _ _ _ _ _

theorem exportFileLog_fst (env : ExportEnv) (fuel : Nat) (dir : Path) (w : Disk) :
    (exportFileLog env fuel dir w).1 = exportFile env fuel dir w := by
  unfold exportFileLog exportFile
  refine logThen_fst fun w _ => ?_
  rw [saying_fst]
  exact exportLoopLog_fst env (exportItemLog_fst env fuel dir) _ _ _ _ _

/-! ### What the messages tell, for all exports -/

/-- Success, and no message that something failed. -/
def Clean (r : Logged α) : Prop := (∃ a, r.1.2 = .ok a) ∧ NoUnable r.2

/-- No operation from `a` on and before `b` fails. -/
def NoFault (env : ExportEnv) (a b : Nat) : Prop := ∀ n, a ≤ n → n < b → env.fault n = false

/-- The same without failing operations. -/
def unfailing (env : ExportEnv) : ExportEnv := { env with fault := fun _ => false }

/-- A program with messages, whose messages tell the directories that were made and whether an operation
  failed. -/
structure Told (env : ExportEnv) (P : ExportEnv → Disk → Logged α) : Prop where
  mono : ∀ w, w.tick ≤ (P env w).1.1.tick
  same : ∀ w, NoFault env w.tick (P env w).1.1.tick → P (unfailing env) w = P env w
  clean : ∀ w, Clean (P env w) → NoFault env w.tick (P env w).1.1.tick
  made : ∀ w q, (P env w).1.1.fs.dir q = true ↔ w.fs.dir q = true ∨ q ∈ createdIn (P env w).2
  fresh : ∀ w, ∀ q ∈ createdIn (P env w).2, w.fs.dir q = false
  once : ∀ w, (createdIn (P env w).2).Nodup

theorem createdIn_append (a b : List ExportMessage) : createdIn (a ++ b) = createdIn a ++ createdIn b :=
  List.filterMap_append

theorem Told.congr {env : ExportEnv} {P P' : ExportEnv → Disk → Logged α} (h : Told env P')
    (he : ∀ e, SameExport env e → ∀ w, P e w = P' e w) : Told env P := by
  have h0 := he env ⟨rfl, rfl, rfl, rfl⟩
  have h1 := he (unfailing env) ⟨rfl, rfl, rfl, rfl⟩
  refine ⟨?_, ?_, ?_, ?_, ?_, ?_⟩ <;> intro w <;> simp only [h0, h1]
  · exact h.mono w
  · exact h.same w
  · exact h.clean w
  · exact h.made w
  · exact h.fresh w
  · exact h.once w

theorem Told.pure {env : ExportEnv} (r : Res α) {l : List ExportMessage} (hl : createdIn l = []) :
    Told env fun _ w => ((w, r), l) :=
  ⟨fun _ => Nat.le_refl _, fun _ _ => rfl, fun w _ n h1 h2 => absurd h2 (Nat.not_lt.2 h1),
    fun w q => (by rw [hl]; simp), fun w q hq => (by rw [hl] at hq; cases hq),
    fun w => (by rw [hl]; exact List.nodup_nil)⟩

/-- One program after the other, whatever the result of the first is. -/
theorem Told.bind {env : ExportEnv} {P : ExportEnv → Disk → Logged α}
    {Q : Res α → ExportEnv → Disk → Logged β} (hP : Told env P) (hQ : ∀ r, Told env (Q r))
    (hok : ∀ r w, Clean (Q r env w) → ∃ a, r = .ok a) :
    Told env fun e w => saying (P e w).2 (Q (P e w).1.2 e (P e w).1.1) := by
  refine ⟨?_, ?_, ?_, ?_, ?_, ?_⟩ <;> intro w
  · exact Nat.le_trans (hP.mono w) ((hQ _).mono _)
  · intro h
    have h1 := (hQ (P env w).1.2).mono (P env w).1.1
    have e1 := hP.same w fun n a b => h n a (Nat.lt_of_lt_of_le b h1)
    have e2 := (hQ (P env w).1.2).same (P env w).1.1 fun n a b => h n (Nat.le_trans (hP.mono w) a) b
    rw [e1, e2]
  · rintro ⟨h1, h2⟩ n a b
    have hq : Clean (Q (P env w).1.2 env (P env w).1.1) :=
      ⟨h1, fun i k hm => h2 i k (List.mem_append_right _ hm)⟩
    have hp : Clean (P env w) := ⟨hok _ _ hq, fun i k hm => h2 i k (List.mem_append_left _ hm)⟩
    by_cases hc : n < (P env w).1.1.tick
    · exact hP.clean w hp n a hc
    · exact (hQ _).clean _ hq n (by omega) b
  · intro q
    show (Q (P env w).1.2 env (P env w).1.1).1.1.fs.dir q = true ↔ _ ∨ q ∈ createdIn (_ ++ _)
    rw [(hQ _).made, hP.made, createdIn_append, List.mem_append, or_assoc]
  · intro q hq
    have hq : q ∈ createdIn ((P env w).2 ++ _) := hq
    rw [createdIn_append, List.mem_append] at hq
    rcases hq with hq | hq
    · exact hP.fresh w q hq
    · have := (hQ _).fresh _ q hq
      cases hd : w.fs.dir q with
      | false => rfl
      | true => rw [(hP.made w q).2 (Or.inl hd)] at this; cases this
  · show (createdIn (_ ++ _)).Nodup
    rw [createdIn_append, List.nodup_append]
    refine ⟨hP.once w, (hQ _).once _, ?_⟩
    rintro q hq _ hq' rfl
    have := (hQ _).fresh _ q hq'
    rw [(hP.made w q).2 (Or.inr hq)] at this
    cases this

theorem Told.then {env : ExportEnv} {P : ExportEnv → Disk → Logged α} {Q : ExportEnv → Disk → α → Logged β}
    (hP : Told env P) (hQ : ∀ a, Told env fun e w => Q e w a) : Told env fun e w => logThen (P e w) (Q e) := by
  refine (Told.bind (Q := fun r e w => logThen ((w, r), []) (Q e)) hP ?_ ?_).congr (fun e _ w => ?_)
  · intro r
    cases r with
    | ok a => exact (hQ a).congr fun _ _ _ => rfl
    | err => exact .pure _ rfl
    | ub => exact .pure _ rfl
    | hang => exact .pure _ rfl
  · rintro r w ⟨⟨a, h⟩, _⟩
    cases r with
    | ok a => exact ⟨a, rfl⟩
    | err => cases h
    | ub => cases h
    | hang => cases h
  · rcases P e w with ⟨⟨w, _ | _ | _ | _⟩, l⟩
    · rfl
    all_goals
      unfold logThen saying
      dsimp only
      rw [List.append_nil]

theorem Told.saying {env : ExportEnv} {P : ExportEnv → Disk → Logged α} (hP : Told env P)
    {l : List ExportMessage} (hl : createdIn l = []) : Told env fun e w => saying l (P e w) :=
  (Told.then (P := fun _ w => ((w, .ok ()), l)) (Q := fun e w _ => P e w) (.pure _ hl) (fun _ => hP)).congr
    fun _ _ _ => rfl

/-- An operation on the file system that leaves the directories as they are. -/
theorem Told.op {env : ExportEnv} {f : Fs → Option (α × Fs)}
    (hf : ∀ fs a fs', f fs = some (a, fs') → fs'.dir = fs.dir) : Told env fun e w => silent (fsOp e w f) := by
  have key : ∀ w, (fsOp env w f).1.tick = w.tick + 1 ∧ (fsOp env w f).1.fs.dir = w.fs.dir ∧
      ((∃ a, (fsOp env w f).2 = .ok a) → env.fault w.tick = false) := by
    intro w
    rcases fsOp_cases env w f with h | ⟨a, fs, h1, h2, h⟩ <;> rw [h]
    · exact ⟨rfl, rfl, fun ⟨_, h⟩ => by cases h⟩
    · exact ⟨rfl, hf _ _ _ h2, fun _ => h1⟩
  refine ⟨?_, ?_, ?_, ?_, ?_, ?_⟩ <;> intro w
  · show w.tick ≤ (fsOp env w f).1.tick
    rw [(key w).1]; omega
  · intro h
    have : env.fault w.tick = false := h w.tick (Nat.le_refl _) (by
      show w.tick < (fsOp env w f).1.tick
      rw [(key w).1]; omega)
    show silent (fsOp _ w f) = silent (fsOp _ w f)
    congr 1
    unfold fsOp
    rw [this]
    rfl
  · rintro ⟨h, _⟩ n a b
    have b : n < (fsOp env w f).1.tick := b
    rw [(key w).1] at b
    have : n = w.tick := by omega
    rw [this]
    exact (key w).2.2 h
  · intro q
    show (fsOp env w f).1.fs.dir q = true ↔ _
    rw [(key w).2.1]
    simp [silent, createdIn]
  · intro q hq
    cases hq
  · exact List.nodup_nil

theorem told_append {env : ExportEnv} (p : Path) (data : Bytes) :
    Told env fun e w => silent (fsAppend e w p data) := by
  refine ⟨?_, ?_, ?_, ?_, ?_, ?_⟩ <;> intro w
  · show w.tick ≤ (fsAppend env w p data).1.tick
    unfold fsAppend
    split <;> exact Nat.le_succ _
  · intro h
    have : env.fault w.tick = false := h w.tick (Nat.le_refl _) (by
      show w.tick < (fsAppend env w p data).1.tick
      unfold fsAppend
      split <;> exact Nat.lt_succ_self _)
    show silent (fsAppend _ w p data) = silent (fsAppend _ w p data)
    congr 1
    unfold fsAppend
    rw [this]
    rfl
  · rintro ⟨⟨x, h⟩, _⟩ n a b
    have h : (fsAppend env w p data).2 = .ok x := h
    have b : n < (fsAppend env w p data).1.tick := b
    unfold fsAppend at h b
    cases hf : env.fault w.tick with
    | true => rw [hf] at h; cases h
    | false =>
      rw [hf] at b
      have b : n < w.tick + 1 := b
      have : n = w.tick := by omega
      rw [this]
      exact hf
  · intro q
    show (fsAppend env w p data).1.fs.dir q = true ↔ _
    have : (fsAppend env w p data).1.fs.dir = w.fs.dir := by
      unfold fsAppend
      split <;> rfl
    rw [this]
    simp [silent, createdIn]
  · intro q hq
    cases hq
  · exact List.nodup_nil

/-- A directory and its message. -/
theorem told_mkdir {env : ExportEnv} (p : Path) (r : α) : Told env fun e w =>
    logThen (silent (fsMkdir e w p)) fun w _ => ((w, .ok r), [.created p]) := by
  have key : ∀ w, (env.fault w.tick = true ∨ w.fs.dir p = true ∨ env.fault w.tick = false) ∧
      ((logThen (silent (fsMkdir env w p)) fun w _ => ((w, Res.ok r), [ExportMessage.created p])) =
          ((⟨w.fs, w.tick + 1⟩, .err), []) ∨
        env.fault w.tick = false ∧ w.fs.dir p = false ∧
        (logThen (silent (fsMkdir env w p)) fun w _ => ((w, Res.ok r), [ExportMessage.created p])) =
          ((⟨w.fs.addDir p, w.tick + 1⟩, .ok r), [.created p])) := by
    intro w
    refine ⟨by cases env.fault w.tick <;> simp, ?_⟩
    unfold fsMkdir
    rcases fsOp_cases env w (fun fs =>
      if fs.has p ∨ p = [] ∨ ¬ fs.dir p.dropLast then none else some ((), fs.addDir p)) with
      h | ⟨a, fs, h1, h2, h⟩
    · rw [h]; exact Or.inl rfl
    · rw [h]
      split at h2
      · cases h2
      · rename_i hc
        cases h2
        refine Or.inr ⟨h1, ?_, rfl⟩
        simp only [not_or, Bool.not_eq_true] at hc
        exact (has_false hc.1).1
  refine ⟨?_, ?_, ?_, ?_, ?_, ?_⟩ <;> intro w
  · rcases (key w).2 with h | ⟨_, _, h⟩ <;> rw [h] <;> exact Nat.le_succ _
  · intro h
    have : env.fault w.tick = false := h w.tick (Nat.le_refl _) (by
      rcases (key w).2 with h | ⟨_, _, h⟩ <;> rw [h] <;> exact Nat.lt_succ_self _)
    congr 2
    unfold fsMkdir fsOp
    rw [this]
    rfl
  · rintro ⟨⟨x, h⟩, _⟩ n a b
    rcases (key w).2 with k | ⟨k1, _, k⟩
    · rw [k] at h; cases h
    · rw [k] at b
      have b : n < w.tick + 1 := b
      have : n = w.tick := by omega
      rw [this]
      exact k1
  · intro q
    rcases (key w).2 with k | ⟨_, _, k⟩ <;> rw [k]
    · simp [createdIn]
    · show (if q = p then true else w.fs.dir q) = true ↔ _
      simp only [createdIn, List.filterMap_cons, List.filterMap_nil, List.mem_singleton]
      by_cases hq : q = p
      · simp [hq]
      · simp [hq]
  · intro q hq
    rcases (key w).2 with k | ⟨_, k1, k⟩ <;> rw [k] at hq
    · cases hq
    · simp only [createdIn, List.filterMap_cons, List.filterMap_nil, List.mem_singleton] at hq
      rw [hq]
      exact k1
  · rcases (key w).2 with k | ⟨_, _, k⟩ <;> rw [k]
    · exact List.nodup_nil
    · exact List.nodup_singleton _

theorem silent_then (r : Disk × Res α) (f : Disk → α → Disk × Res β) :
    silent (diskThen r f) = logThen (silent r) fun w a => silent (f w a) := by
  obtain ⟨w, _ | _ | _ | _⟩ := r <;> rfl

theorem told_exists {env : ExportEnv} (p : Path) : Told env fun e w => silent (fsExists e w p) :=
  .op fun _ _ _ h => by cases h; rfl

theorem told_close {env : ExportEnv} : Told env fun e w => silent (fsClose e w) :=
  .op fun _ _ _ h => by cases h; rfl

theorem told_create {env : ExportEnv} (p : Path) : Told env fun e w => silent (fsCreate e w p) :=
  .op fun _ _ _ h => by
    split at h
    · cases h
    · cases h; rfl

theorem told_copy {env : ExportEnv} (d : DirEntry) (p : Path) : ∀ (fuel remaining : Nat) (cur : Int),
    Told env fun e w => silent (copyLoop e d p fuel remaining cur w) := by
  intro fuel
  induction fuel with
  | zero =>
    intro remaining cur
    unfold copyLoop
    by_cases h : remaining = 0
    · simp only [if_pos h]; exact .pure _ rfl
    · simp only [if_neg h]; exact .pure _ rfl
  | succ fuel ih =>
    intro remaining cur
    unfold copyLoop
    by_cases h : remaining = 0
    · simp only [if_pos h]; exact .pure _ rfl
    · simp only [if_neg h]
      generalize (if exportBufferSize > remaining then remaining else exportBufferSize) = n
      refine Told.congr (P' := fun e w =>
        logThen ((w, (streamRead env.ctx d cur n).1.res), []) fun w data =>
          if data.length ≠ n then ((w, .err), [])
          else logThen (silent (fsAppend e w p data)) fun w _ =>
            silent (copyLoop e d p fuel (remaining - n) (streamRead env.ctx d cur n).2 w)) ?_
        (fun e he w => by
          rw [he.ctx, silent_then]
          show logThen _ _ = logThen _ _
          congr 1
          funext w data
          split
          · rfl
          · rw [silent_then])
      refine Told.then (.pure _ rfl) ?_
      intro data
      by_cases hl : data.length ≠ n
      · simp only [if_pos hl]; exact .pure _ rfl
      · simp only [if_neg hl]
        exact Told.then (told_append p data) (fun _ => ih _ _)

theorem told_makeItemDirectory {env : ExportEnv} (d : DirEntry) (index : Nat) (dir : Path) :
    Told env fun e w => makeItemDirectoryLog e d index dir w := by
  unfold makeItemDirectoryLog
  refine Told.saying ?_ rfl
  refine Told.congr (P' := fun e w =>
    match env.utf8Name d with
    | none => ((w, .err), [])
    | some raw =>
      match env.sanitize raw with
      | none => ((w, .err), [])
      | some name =>
        logThen (silent (fsExists e w (resolve dir name))) fun w found =>
          logThen (silent (pureStep w (if found then fallbackName name index else .ok name))) fun w name =>
            saying (if found then [.defaulting name] else []) <|
              logThen (silent (fsMkdir e w (resolve dir name))) fun w _ =>
                ((w, .ok (resolve dir name)), [.created (resolve dir name)])) ?_
    (fun e he w => by
      rw [he.utf8Name, he.sanitize]
      cases env.utf8Name d with
      | none => rfl
      | some raw =>
        dsimp only
        cases env.sanitize raw <;> rfl)
  cases env.utf8Name d with
  | none => exact .pure _ rfl
  | some raw =>
    simp only []
    cases env.sanitize raw with
    | none => exact .pure _ rfl
    | some name =>
      refine Told.then (told_exists _) (fun found => ?_)
      refine Told.then (Told.pure _ rfl) (fun name => ?_)
      exact Told.saying (told_mkdir _ _) (by cases found <;> rfl)

theorem told_writeItemData {env : ExportEnv} (d : DirEntry) (dir : Path) :
    Told env fun e w => writeItemDataLog e d dir w := by
  unfold writeItemDataLog
  refine Told.then (told_exists _) (fun found => ?_)
  cases found with
  | true => exact .pure _ rfl
  | false =>
    refine Told.then (told_create _) (fun _ => ?_)
    refine Told.then (told_copy _ _ _ _ _) (fun _ => ?_)
    exact Told.then told_close (fun _ => .pure _ rfl)

theorem told_loop {env : ExportEnv} {f : ExportEnv → Item → Nat → Disk → Logged Unit} (it : Item) (count : Nat)
    (hf : ∀ s i, Told env fun e w => f e s i w) : ∀ k index,
    Told env fun e w => exportLoopLog e (f e) it count k index w := by
  intro k
  induction k with
  | zero => intro index; exact .pure _ rfl
  | succ k ih =>
    intro index
    refine Told.congr (P' := fun e w =>
      logThen ((w, getSubItem env.tree it index), []) fun w sub =>
        match f e sub index w with
        | ((w, .ok _), l) => saying l (exportLoopLog e (f e) it count k (index + 1) w)
        | ((w, .err), l) =>
          saying (l ++ [.unable (index + 1) count]) (exportLoopLog e (f e) it count k (index + 1) w)
        | ((w, .ub), l) => ((w, .ub), l)
        | ((w, .hang), l) => ((w, .hang), l)) ?_ (fun e he w => by rw [exportLoopLog, he.tree]; rfl)
    refine Told.then (Told.pure _ rfl) (fun sub => ?_)
    refine (Told.bind (Q := fun r e w => match (generalizing := false) r with
        | .ok _ => exportLoopLog e (f e) it count k (index + 1) w
        | .err => saying [.unable (index + 1) count] (exportLoopLog e (f e) it count k (index + 1) w)
        | .ub => ((w, .ub), [])
        | .hang => ((w, .hang), [])) (hf sub index) ?_ ?_).congr (fun e _ w => by
      rcases f e sub index w with ⟨⟨w1, _ | _ | _ | _⟩, l⟩
      · rfl
      · unfold saying
        dsimp only
        rw [List.append_assoc]
      all_goals
        unfold saying
        dsimp only
        rw [List.append_nil])
    · intro r
      cases r with
      | ok _ => exact ih _
      | err => exact Told.saying (ih _) rfl
      | ub => exact .pure _ rfl
      | hang => exact .pure _ rfl
    · rintro r w ⟨⟨a, h⟩, hn⟩
      cases r with
      | ok a => exact ⟨a, rfl⟩
      | err => exact absurd (List.mem_append_left _ (List.mem_singleton.2 rfl)) (hn (index + 1) count)
      | ub => cases h
      | hang => cases h

theorem told_exportItem {env : ExportEnv} : ∀ (fuel : Nat) (dir : Path) (it : Item) (index : Nat),
    Told env fun e w => exportItemLog e fuel dir it index w := by
  intro fuel
  induction fuel with
  | zero => intro dir it index; exact .pure _ rfl
  | succ fuel ih =>
    intro dir it index
    unfold exportItemLog
    refine Told.then (told_makeItemDirectory _ _ _) (fun itemDir => ?_)
    refine Told.then (told_writeItemData _ _) (fun written => ?_)
    cases written with
    | false => exact .pure _ rfl
    | true =>
      refine (told_loop (f := fun e => exportItemLog e fuel itemDir) it (numberOfSubItems env.tree it) (ih itemDir)
        (numberOfSubItems env.tree it) 0).congr (fun e he w => ?_)
      simp only [if_true, he.tree]

theorem told_exportFile {env : ExportEnv} (fuel : Nat) (dir : Path) :
    Told env fun e w => exportFileLog e fuel dir w := by
  refine Told.congr (P' := fun e w =>
    logThen (logThen (silent (fsMkdir e w dir)) fun w _ => ((w, .ok ()), [.created dir])) fun w _ =>
      exportLoopLog e (exportItemLog e fuel dir) ⟨none, env.tree.root⟩
        (numberOfSubItems env.tree ⟨none, env.tree.root⟩) (numberOfSubItems env.tree ⟨none, env.tree.root⟩) 0 w) ?_
    (fun e he w => by
      unfold exportFileLog
      rw [he.tree]
      rcases fsMkdir e w dir with ⟨w1, _ | _ | _ | _⟩ <;> rfl)
  refine Told.then (told_mkdir _ _) (fun _ => ?_)
  exact told_loop (f := fun e => exportItemLog e fuel dir) ⟨none, env.tree.root⟩ _ (told_exportItem fuel dir) _ 0

/-! ### Exports without failing operations -/

theorem noUnable_append {a b : List ExportMessage} (ha : NoUnable a) (hb : NoUnable b) : NoUnable (a ++ b) :=
  fun i n h => (List.mem_append.1 h).elim (ha i n) (hb i n)

theorem noUnable_nil : NoUnable [] := fun _ _ h => by cases h

theorem noUnable_then {r : Logged α} {f : Disk → α → Logged β} (hr : NoUnable r.2)
    (hf : ∀ w a, r.1 = (w, .ok a) → NoUnable (f w a).2) : NoUnable (logThen r f).2 := by
  obtain ⟨⟨w, _ | _ | _ | _⟩, l⟩ := r
  · exact noUnable_append hr (hf _ _ rfl)
  all_goals exact hr

theorem makeItemDirectoryLog_noUnable (env : ExportEnv) (d : DirEntry) (index : Nat) (dir : Path) (w : Disk) :
    NoUnable (makeItemDirectoryLog env d index dir w).2 := by
  unfold makeItemDirectoryLog
  refine noUnable_append (fun i n h => by simp at h) ?_
  cases env.utf8Name d with
  | none => exact noUnable_nil
  | some raw =>
    dsimp only
    cases env.sanitize raw with
    | none => exact noUnable_nil
    | some name =>
      refine noUnable_then noUnable_nil fun w found _ => ?_
      refine noUnable_then noUnable_nil fun w name _ => ?_
      refine noUnable_append ?_ (noUnable_then noUnable_nil fun w _ _ => fun i n h => by simp at h)
      cases found
      · exact noUnable_nil
      · exact fun i n h => by simp at h

theorem writeItemDataLog_noUnable (env : ExportEnv) (d : DirEntry) (dir : Path) (w : Disk) :
    NoUnable (writeItemDataLog env d dir w).2 := by
  unfold writeItemDataLog
  refine noUnable_then noUnable_nil fun w found _ => ?_
  cases found with
  | true => exact fun i n h => by simp at h
  | false =>
    refine noUnable_then noUnable_nil fun w _ _ => ?_
    refine noUnable_then noUnable_nil fun w _ _ => ?_
    exact noUnable_then noUnable_nil fun w _ _ => noUnable_nil

theorem exportLoopLog_clean {env : ExportEnv} {nameOf : DirEntry → Bytes} {start : Item}
    (hx : Exportable env nameOf start) {f : Item → Nat → Disk → Logged Unit} {dir : Path}
    {names : List Bytes} {it : Item} (hnm : NamedFrom env.tree nameOf start names it) (count : Nat)
    (hone : ∀ (i : Nat) s, getSubItem env.tree it i = .ok s → ∀ w : Disk, Tidy w.fs →
      w.fs.dir dir = true → w.fs.has (dir ++ [nameOf s.entry]) = false →
      ∃ w' l, f s i w = ((w', .ok ()), l) ∧ NoUnable l ∧ Tidy w'.fs ∧
        GrownAt (dir ++ [nameOf s.entry]) w.fs w'.fs) :
    ∀ (k index : Nat) (w : Disk), index + k = numberOfSubItems env.tree it → Tidy w.fs →
      w.fs.dir dir = true →
      (∀ (i : Nat) s, getSubItem env.tree it i = .ok s → index ≤ i →
        w.fs.has (dir ++ [nameOf s.entry]) = false) →
      NoUnable (exportLoopLog env f it count k index w).2 := by
  intro k
  induction k with
  | zero =>
    intro index w _ _ _ _
    exact noUnable_nil
  | succ k ih =>
    intro index w hk ht hdir hno
    have hlt : index < (env.tree.kids it.node).length := by unfold numberOfSubItems at hk; omega
    have hsub : getSubItem env.tree it index = .ok (.ofEntry (env.tree.kids it.node)[index]) :=
      getSubItem_ok.2 ⟨_, List.getElem?_eq_getElem hlt, rfl⟩
    generalize Item.ofEntry (env.tree.kids it.node)[index] = s at hsub
    obtain ⟨w1, l, h1, h2, h3, h4⟩ := hone index s hsub w ht hdir (hno index s hsub (Nat.le_refl _))
    unfold exportLoopLog pureStep
    rw [hsub]
    refine noUnable_append noUnable_nil ?_
    dsimp only
    rw [h1]
    refine (noUnable_append h2 (ih (index + 1) w1 (by omega) h3 (h4.dirs _ hdir) ?_))
    intro i x hi hle
    cases hh : w1.fs.has (dir ++ [nameOf x.entry]) with
    | false => rfl
    | true =>
      have := h4.fresh _ hh (hno i x hi (by omega))
      have := List.IsPrefix.eq_of_length this (by simp)
      simp at this
      have := hx.distinct names it hnm index i s x hsub hi this
      omega

theorem exportItemLog_clean {env : ExportEnv} (hs : NoSeparator env.sanitize)
    (hf : ∀ n, env.fault n = false) (hctx : WellFormedCtx env.ctx) {content : Bytes}
    (hdev : env.ctx.dev = Dev.ofBytes content) {nameOf : DirEntry → Bytes} {start : Item}
    (hx : Exportable env nameOf start)
    (hfit : ∀ names it, NamedFrom env.tree nameOf start names it → ItemFits env.ctx it.entry) :
    ∀ (n fuel : Nat) (dir : Path) (names : List Bytes) (it : Item) (index : Nat) (w : Disk),
      n < fuel → NestedAtMost env.tree n it → NamedFrom env.tree nameOf start names it →
      names ≠ [] → Tidy w.fs → w.fs.dir dir = true →
      w.fs.has (dir ++ [nameOf it.entry]) = false →
      ∃ w' l, exportItemLog env fuel dir it index w = ((w', .ok ()), l) ∧ NoUnable l ∧ Tidy w'.fs ∧
        GrownAt (dir ++ [nameOf it.entry]) w.fs w'.fs := by
  intro n
  -- the messages of the item, when those of its sub items are known
  have hstep : ∀ (m fuel : Nat) (dir : Path) (names : List Bytes) (it : Item) (index : Nat) (w : Disk),
      m < fuel + 1 → NestedAtMost env.tree m it → NamedFrom env.tree nameOf start names it →
      names ≠ [] → Tidy w.fs → w.fs.dir dir = true →
      w.fs.has (dir ++ [nameOf it.entry]) = false →
      (∀ (w1 : Disk), Tidy w1.fs → w1.fs.dir (dir ++ [nameOf it.entry]) = true →
        (∀ n, n ≠ dataName → w1.fs.has (dir ++ [nameOf it.entry] ++ [n]) = false) →
        NoUnable (exportLoopLog env (exportItemLog env fuel (dir ++ [nameOf it.entry])) it
          (numberOfSubItems env.tree it) (numberOfSubItems env.tree it) 0 w1).2) →
      ∃ w' l, exportItemLog env (fuel + 1) dir it index w = ((w', .ok ()), l) ∧ NoUnable l ∧ Tidy w'.fs ∧
        GrownAt (dir ++ [nameOf it.entry]) w.fs w'.fs := by
    intro m fuel dir names it index w hm hn hnm hne ht hdir hno hloop
    obtain ⟨w', h1, h2, h3, _, _⟩ := exportItem_complete hs hf hctx hdev hx hfit m (fuel + 1) dir names it index w
      hm hn hnm hne ht hdir hno
    have hfst := exportItemLog_fst env (fuel + 1) dir it index w
    rw [h1] at hfst
    refine ⟨w', (exportItemLog env (fuel + 1) dir it index w).2, Prod.ext hfst rfl, ?_, h2, h3⟩
    obtain ⟨w2, ⟨w1, k1, k2⟩, _, k3, _, k4, _⟩ := exportItem_parts hs hf hctx hdev hx hfit fuel hnm hne ht hdir hno
      index
    unfold exportItemLog
    refine noUnable_then (makeItemDirectoryLog_noUnable _ _ _ _ _) fun wa itemDir ha => ?_
    rw [makeItemDirectoryLog_fst, k1] at ha
    cases ha
    refine noUnable_then (writeItemDataLog_noUnable _ _ _ _) fun wb written hb => ?_
    rw [writeItemDataLog_fst, k2] at hb
    cases hb
    exact hloop w2 k3 k4.1 k4.2
  induction n with
  | zero =>
    intro fuel dir names it index w hlt hn hnm hne ht hdir hno
    cases fuel with
    | zero => omega
    | succ fuel =>
      refine hstep 0 fuel dir names it index w hlt hn hnm hne ht hdir hno ?_
      intro w1 _ _ _
      have hn : numberOfSubItems env.tree it = 0 := hn
      rw [hn]
      exact noUnable_nil
  | succ n ih =>
    intro fuel dir names it index w hlt hn hnm hne ht hdir hno
    cases fuel with
    | zero => omega
    | succ fuel =>
      refine hstep (n + 1) fuel dir names it index w hlt hn hnm hne ht hdir hno ?_
      intro w1 ht1 hd1 hno1
      refine exportLoopLog_clean hx hnm _ ?_ _ 0 w1 (by omega) ht1 hd1 ?_
      · intro i s hi w ht hd hno
        exact ih fuel _ _ s i w (by omega) (hn i s hi) (.sub hnm hi) (by simp) ht hd hno
      · intro i s hi _
        exact hno1 _ (hx.plain _ s (.sub hnm hi) (by simp)).2

/-- Exports without failing operations have no messages of items that could not be exported. -/
theorem exportFileLog_clean {env : ExportEnv} {g : Bytes → Bytes} {doc : Doc} {fuel : Nat}
    (hready : ExportReady env g doc fuel) (hf : ∀ n, env.fault n = false) {dir : Path} {w : Disk}
    (ht : Tidy w.fs) (hno : w.fs.has dir = false) (hparent : w.fs.dir dir.dropLast = true) :
    NoUnable (exportFileLog env fuel dir w).2 := by
  obtain ⟨hx, hfit, _, hdata⟩ := hready.items
  obtain ⟨⟨list, cmp, m, hnd, htree, _, hfuel⟩, hctx, _, _, ⟨content, hdev⟩, hshow, _, hs, _, _⟩ := hready
  have hne : dir ≠ [] := by
    rintro rfl
    rw [has_of_dir ht.root] at hno; cases hno
  obtain ⟨hg1, hg2⟩ := mkdir_tidy ht hno hparent
  have hempty := fun n => addDir_empty ht hno n
  unfold exportFileLog
  rw [fsMkdir_intro hf hno hne hparent]
  refine noUnable_append noUnable_nil (noUnable_append (fun i n h => by simp at h) ?_)
  refine exportLoopLog_clean hx NamedFrom.here _ ?_ _ 0 _ (by omega) hg1 (addDir_dir _ _) (fun i s _ _ => hempty _)
  intro i s hi w ht hd hno
  have hp : itemAt env.tree [i] = some s := (itemFrom_snoc _ [] _ i _).2 ⟨_, rfl, hi⟩
  exact exportItemLog_clean hs hf hctx hdev hx (fun names it h => by
      obtain ⟨p, hp⟩ := export_named_item h
      exact hfit _ _ hp.2) (list.length - 2) fuel dir _ s i w
    (by
      have := depth_lt hnd htree hp
      simp at this
      omega)
    (nestedAtMost_of_depth hnd htree _ [i] s hp (by simp; omega)) (.sub .here hi) (by simp) ht hd hno

/-- The faults of an export of a document that can be exported are told. -/
theorem export_told {env : ExportEnv} {g : Bytes → Bytes} {doc : Doc} {fuel : Nat}
    (hready : ExportReady env g doc fuel) {dir : Path} {w : Disk}
    (ht : Tidy w.fs) (hno : w.fs.has dir = false) (hparent : w.fs.dir dir.dropLast = true) :
    (((exportFileLog env fuel dir w).1.2 = .ok () ∧ NoUnable (exportFileLog env fuel dir w).2) ↔
      ∀ n, w.tick ≤ n → n < (exportFileLog env fuel dir w).1.1.tick → env.fault n = false) ∧
    ((exportFileLog env fuel dir w).1.2 = .ok () → NoUnable (exportFileLog env fuel dir w).2 →
      ImageAt g doc dir w.fs (exportFileLog env fuel dir w).1.1.fs) := by
  have htold := told_exportFile (env := env) fuel dir
  have hready' : ExportReady (unfailing env) g doc fuel :=
    ⟨hready.tree, hready.ctx, hready.sec, hready.short, hready.dev, hready.shows, hready.size, hready.sep,
      hready.good, hready.name⟩
  have hback : NoFault env w.tick (exportFileLog env fuel dir w).1.1.tick →
      ((exportFileLog env fuel dir w).1.2 = .ok () ∧ NoUnable (exportFileLog env fuel dir w).2) ∧
      ImageAt g doc dir w.fs (exportFileLog env fuel dir w).1.1.fs := by
    intro h
    have hs := htold.same w h
    rw [← hs]
    have h1 := export_shown hready' (fun _ => rfl) ht hno hparent
    have h2 := exportFileLog_clean hready' (fun _ => rfl) ht hno hparent
    rw [exportFileLog_fst]
    exact ⟨⟨h1.1, h2⟩, h1.2⟩
  have hclean : (exportFileLog env fuel dir w).1.2 = .ok () → NoUnable (exportFileLog env fuel dir w).2 →
      NoFault env w.tick (exportFileLog env fuel dir w).1.1.tick :=
    fun h1 h2 => htold.clean w ⟨⟨_, h1⟩, h2⟩
  exact ⟨⟨fun h => hclean h.1 h.2, fun h => (hback h).1⟩, fun h1 h2 => (hback (hclean h1 h2)).2⟩

/-! ### C110 -/

/-- C110: the messages name the directories that an export makes.  For every file, whatever its items are
  called and whatever operations of the file system fail, in every starting state: the export writes
  what `exportFile` writes, the directories that its messages name as created are those that it has
  made, and each of them is named once. -/
theorem C110_created (env : ExportEnv) (fuel : Nat) (dir : Path) (w : Disk) :
    (exportFileLog env fuel dir w).1 = exportFile env fuel dir w ∧
    (∀ q, q ∈ createdIn (exportFileLog env fuel dir w).2 ↔
      w.fs.dir q = false ∧ (exportFile env fuel dir w).1.fs.dir q = true) ∧
    (createdIn (exportFileLog env fuel dir w).2).Nodup := by
  have h := told_exportFile (env := env) fuel dir
  have hfst := exportFileLog_fst env fuel dir w
  refine ⟨hfst, fun q => ?_, h.once w⟩
  have hm := h.made w q
  rw [hfst] at hm
  rw [hm]
  constructor
  · intro hq
    exact ⟨h.fresh w q hq, .inr hq⟩
  · rintro ⟨h1, h2 | h2⟩
    · exact nomatch h1.symm.trans h2
    · exact h2

/-- C110: the messages tell whether an export is complete.  For every file with a document, whatever operations
  of the file system fail: the export ends with success and without a message of an item that it could not
  export exactly if none of its operations failed, and what it then leaves is the whole image of the
  document. -/
theorem C110_failures_told {content : Bytes} {hd : HeaderFields} {slots : List SlotFields} {doc : Doc}
    (hf : HeldBy content hd slots doc) (cmp : Bytes → Bytes → Option Bool)
    (hcmp : ∀ n ∈ (entriesOfSlots slots).map (·.name), Comparable cmp n)
    (hshort : 2 ≤ hd.shortExp)
    (hsize : ∀ d ∈ entriesOfSlots slots, d.id ≠ 0 → d.type ≠ 2 → d.size = 0)
    (st : FileState) (hst : Reachable cmp st) (hclosed : st.file.handle = none)
    (h : HandleId) (hdev : st.world.dev h = Dev.ofBytes content)
    (flags : Nat) (hfl : flags % 4 = 1) :
    (openHandle cmp h flags {} st).1 = .ok () ∧
    ∃ t f, (openHandle cmp h flags {} st).2.file.tree = some t ∧
      (openHandle cmp h flags {} st).2.file.ctx
        ((openHandle cmp h flags {} st).2.world.dev h) = some f ∧
      ∀ (env : ExportEnv) (g : Bytes → Bytes) (fuel : Nat) (dir : Path) (w : Disk),
        env.tree = t → env.ctx = f → NoSeparator env.sanitize → GoodNames g doc →
        (∀ (d : DirEntry) path x, DocAt doc (path ++ [d.name]) x →
          (env.utf8Name d).bind env.sanitize = some (g d.name)) →
        (entriesOfSlots slots).length ≤ fuel → Tidy w.fs → w.fs.has dir = false →
        w.fs.dir dir.dropLast = true →
        (((exportFileLog env fuel dir w).1.2 = .ok () ∧ NoUnable (exportFileLog env fuel dir w).2) ↔
          ∀ n, w.tick ≤ n → n < (exportFileLog env fuel dir w).1.1.tick → env.fault n = false) ∧
        ((exportFileLog env fuel dir w).1.2 = .ok () → NoUnable (exportFileLog env fuel dir w).2 →
          ImageAt g doc dir w.fs (exportFileLog env fuel dir w).1.1.fs) := by
  obtain ⟨h1, t, f, h2, h3, h4⟩ := held_ready hf cmp hcmp hshort hsize st hst hclosed h hdev flags hfl
  refine ⟨h1, t, f, h2, h3, ?_⟩
  intro env g fuel dir w e1 e2 hsep hg hname hfuel htidy hno hparent
  exact export_told (h4 env g fuel e1 e2 hsep hg hname hfuel) htidy hno hparent

/-- C110 for the files of a writer. -/
theorem C110_written_document (wr : Writer) (kids : List (Bytes × Doc)) (hst : Storable wr kids)
    (hshort : 2 ≤ wr.shortExp)
    (cmp : Bytes → Bytes → Option Bool) (hcmp : ∀ n ∈ namesOfKids kids, Comparable cmp n)
    (st : FileState) (hr : Reachable cmp st) (hclosed : st.file.handle = none)
    (h : HandleId) (hdev : st.world.dev h = Dev.ofBytes (encodeFile wr kids))
    (flags : Nat) (hfl : flags % 4 = 1) :
    (openHandle cmp h flags {} st).1 = .ok () ∧
    ∃ t f, (openHandle cmp h flags {} st).2.file.tree = some t ∧
      (openHandle cmp h flags {} st).2.file.ctx
        ((openHandle cmp h flags {} st).2.world.dev h) = some f ∧
      ∀ (env : ExportEnv) (g : Bytes → Bytes) (fuel : Nat) (dir : Path) (w : Disk),
        env.tree = t → env.ctx = f → NoSeparator env.sanitize → GoodNames g (.storage kids) →
        (∀ d : DirEntry, d.name ∈ namesOfKids kids →
          (env.utf8Name d).bind env.sanitize = some (g d.name)) →
        (namesOfKids kids).length + 1 ≤ fuel → Tidy w.fs → w.fs.has dir = false →
        w.fs.dir dir.dropLast = true →
        (((exportFileLog env fuel dir w).1.2 = .ok () ∧ NoUnable (exportFileLog env fuel dir w).2) ↔
          ∀ n, w.tick ≤ n → n < (exportFileLog env fuel dir w).1.1.tick → env.fault n = false) ∧
        ((exportFileLog env fuel dir w).1.2 = .ok () → NoUnable (exportFileLog env fuel dir w).2 →
          ImageAt g (.storage kids) dir w.fs (exportFileLog env fuel dir w).1.1.fs) := by
  obtain ⟨h1, t, f, h2, h3, h4⟩ := written_ready wr kids hst hshort cmp hcmp st hr hclosed h hdev flags hfl
  refine ⟨h1, t, f, h2, h3, ?_⟩
  intro env g fuel dir w e1 e2 hsep hg hname hfuel htidy hno hparent
  exact export_told (h4 env g fuel e1 e2 hsep hg hname hfuel) htidy hno hparent

/-- The small document in a file system that fails from the n-th operation on: the export is told to be complete
  exactly if it has at most n operations (C110_written_document). -/
example (e : Endian) (n : Nat) : ∃ t f,
    (openHandle cmpNone (.user 1) 1 {} (smallState e)).2.file.tree = some t ∧
    (((exportFileLog (failingEnv t f n) 6 exportPath emptyDisk).1.2 = .ok () ∧
      NoUnable (exportFileLog (failingEnv t f n) 6 exportPath emptyDisk).2) ↔
      (exportFileLog (failingEnv t f n) 6 exportPath emptyDisk).1.1.tick ≤ n) := by
  obtain ⟨_, t, f, h1, h2, h3⟩ := C110_written_document _ smallDoc (smallDoc_storable e)
    (by show 2 ≤ 6; decide) cmpNone (by
    intro n _
    exact ⟨fun _ => by simp [cmpNone], fun _ => by simp [cmpNone]⟩) (smallState e)
    ⟨smallState e, [], ⟨rfl, rfl⟩, rfl⟩ rfl (.user 1) rfl 1 rfl
  have h4 := h3 (failingEnv t f n) fileNameOf 6 exportPath emptyDisk rfl rfl (smallEnv_noSep t f)
    smallDoc_names (by
      rw [smallDoc_namesOf]
      intro d hd
      have : ∀ n ∈ [[65, 0], [66, 0], [67, 0], [68, 0], [69, 0]],
        (some (fileNameOf n)).bind (fun n => some (n.map fun c => if c = 0x2f then 0x5f else c)) =
          some (fileNameOf n) := by decide
      exact this _ hd) (by rw [smallDoc_namesOf]; decide) emptyDisk_tidy (by decide) (by decide)
  refine ⟨t, f, h1, h4.1.trans ⟨fun h => ?_, fun h m _ hm => decide_eq_false (by omega)⟩⟩
  by_contra hc
  have := h n (Nat.zero_le _) (by omega)
  exact absurd (Nat.le_refl n) (of_decide_eq_false this)

/-- A loop over three items of which the second fails: the message has the number of the item, counted from 1, and
  the number of items. -/
example (env : ExportEnv) (item : Item) (s : Item) (w : Disk)
    (h : ∀ i < 3, getSubItem env.tree item i = .ok s) :
    (exportLoopLog env (fun _ i w => ((w, if i = 1 then .err else .ok ()), [])) item 3 3 0 w).2 = [.unable 2 3] := by
  simp [exportLoopLog, pureStep, h, logThen, silent, saying]

end Olecf.Props
