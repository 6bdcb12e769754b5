import Verif.Props.File

/-
  C04, C34 - C37: the life of a file object.
-/

namespace Olecf.Props
open Olecf.Spec

theorem reachable_inv {cmp : Bytes → Bytes → Option Bool} {st : FileState} (h : Reachable cmp st) :
    Inv st := by
  obtain ⟨st0, ops, h0, rfl⟩ := h
  exact inv_runOps ops (inv_initial h0)

theorem readOnly_iff (flags : Nat) : ReadOnly flags ↔ flags % 4 = 1 := by
  unfold ReadOnly flagRead flagWrite
  simp only [decide_eq_true_eq, decide_eq_false_iff_not]
  omega

theorem openCore_cases (cmp : Bytes → Bytes → Option Bool) (dev : Dev) (io : IoHandle) :
    (∃ l, (openCore cmp dev io).1.res = .ok l) ∨ (openCore cmp dev io).1.res = .err := by
  have := openCore_defined cmp dev io
  revert this
  cases (openCore cmp dev io).1.res <;> simp [Res.Defined]

/-! ### C34 -/

/-- `C34_open_iff` for every state with the invariant. -/
theorem openHandle_iff (cmp : Bytes → Bytes → Option Bool) (st : FileState) (hi : Inv st)
    (h : HandleId) (flags : Nat) (flt : Faults) :
    ((openHandle cmp h flags flt st).1 = .ok () ↔
      st.file.handle = none ∧ flags % 4 = 1 ∧ flt.isOpen = false ∧
      (st.world.isOpen h = true ∨ flt.opening = false) ∧
      ∃ l, (openCore cmp (st.world.dev h) .cleared).1.res = .ok l) ∧
    ((openHandle cmp h flags flt st).1 = .ok () ∨ (openHandle cmp h flags flt st).1 = .err) := by
  rw [(openCore_io cmp (st.world.dev h) .cleared st.file.io).1, ← readOnly_iff]
  rcases openHandle_spec (cmp := cmp) (h := h) (flags := flags) (flt := flt) hi.closed with
    ⟨hc, h1⟩ | ⟨⟨a, b, c, d⟩, ⟨l, hl, h1⟩ | ⟨hno, h1⟩⟩
  · rw [h1]
    refine ⟨⟨fun h => (by cases h), ?_⟩, Or.inr rfl⟩
    rintro ⟨a, b, c, d, _⟩
    rcases hc with hc | hc | hc | ⟨hc, hc'⟩
    · rw [a] at hc; cases hc
    · exact absurd b hc
    · rw [c] at hc; cases hc
    · rw [hc, hc'] at d; simp at d
  · rw [h1]
    exact ⟨⟨fun _ => ⟨a, b, c, d, l, hl⟩, fun _ => rfl⟩, Or.inl rfl⟩
  · rw [h1]
    rcases openCore_cases cmp (st.world.dev h) st.file.io with ⟨l, hl⟩ | he
    · exact absurd hl (hno l)
    · rw [he]
      simp [Res.failed]

/-- Opening with a handle succeeds exactly if the file is closed, read access and no write access is
  asked for, the handle can be opened if it is not open already, and the content can be loaded (which
  depends on nothing but the content).  Otherwise it fails. -/
theorem C34_open_iff (cmp : Bytes → Bytes → Option Bool) (st : FileState) (hst : Reachable cmp st)
    (h : HandleId) (flags : Nat) (flt : Faults) :
    ((openHandle cmp h flags flt st).1 = .ok () ↔
      st.file.handle = none ∧ flags % 4 = 1 ∧ flt.isOpen = false ∧
      (st.world.isOpen h = true ∨ flt.opening = false) ∧
      ∃ l, (openCore cmp (st.world.dev h) .cleared).1.res = .ok l) ∧
    ((openHandle cmp h flags flt st).1 = .ok () ∨ (openHandle cmp h flags flt st).1 = .err) :=
  openHandle_iff cmp st (reachable_inv hst) h flags flt

/-- After a failed open the file is closed if it was, after a successful one it is open. -/
theorem openHandle_handle {cmp : Bytes → Bytes → Option Bool} {st : FileState} (hi : Inv st)
    (h : HandleId) (flags : Nat) (flt : Faults) :
    (openHandle cmp h flags flt st).2.file.handle.isSome =
      (st.file.handle.isSome || decide ((openHandle cmp h flags flt st).1 = .ok ())) := by
  rcases openHandle_spec (cmp := cmp) (h := h) (flags := flags) (flt := flt) hi.closed with
    ⟨hc, h1⟩ | ⟨⟨a, b, c, d⟩, ⟨l, hl, h1⟩ | ⟨hno, h1⟩⟩
  · rw [h1]; simp
  · rw [h1]; simp [OleFile.loaded]
  · rw [h1]
    rcases openCore_cases cmp (st.world.dev h) st.file.io with ⟨l, hl⟩ | he
    · exact absurd hl (hno l)
    · simp [he, Res.failed]

/-- What opening by name does in terms of opening a new handle. -/
theorem openName_eq (cmp : Bytes → Bytes → Option Bool) (dev : Dev) (flags : Nat) (flt : Faults)
    (st : FileState) : openName cmp dev flags flt st =
      if flt.create then (.err, st)
      else if flt.setName then
        (.err, ⟨st.file, (st.world.createH dev).2.freeH (.lib st.world.made)⟩)
      else
        let r := openHandle cmp (.lib st.world.made) flags flt ⟨st.file, (st.world.createH dev).2⟩
        if r.1 = .ok () then (.ok (), ⟨{ r.2.file with createdInLibrary := true }, r.2.world⟩)
        else (r.1, ⟨r.2.file, r.2.world.freeH (.lib st.world.made)⟩) := by
  unfold openName
  have h1 : (st.world.createH dev).1 = .lib st.world.made := rfl
  cases flt.create
  · cases flt.setName
    · simp only [Bool.false_eq_true, if_false]
      rw [h1]
      generalize openHandle cmp (.lib st.world.made) flags flt ⟨st.file, (st.world.createH dev).2⟩ = r
      obtain ⟨r, st'⟩ := r
      cases r <;> simp [Res.failed]
    · rfl
  · rfl

theorem openName_handle {cmp : Bytes → Bytes → Option Bool} {st : FileState} (hi : Inv st)
    (dev : Dev) (flags : Nat) (flt : Faults) :
    (openName cmp dev flags flt st).2.file.handle.isSome =
      (st.file.handle.isSome || decide ((openName cmp dev flags flt st).1 = .ok ())) := by
  rw [openName_eq]
  have hi' : ({ file := st.file, world := (st.world.createH dev).2 } : FileState).file.handle = none →
      ({ file := st.file, world := (st.world.createH dev).2 } : FileState).file.Empty := hi.closed
  split
  · simp
  · split
    · simp
    · simp only
      rcases openHandle_spec (cmp := cmp) (h := .lib st.world.made) (flags := flags) (flt := flt)
        (st := ⟨st.file, (st.world.createH dev).2⟩) hi' with
        ⟨hc, h1⟩ | ⟨⟨a, b, c, d⟩, ⟨l, hl, h1⟩ | ⟨hno, h1⟩⟩
      · rw [h1]; simp
      · rw [h1]; simp [OleFile.loaded]
      · rw [h1]
        rcases openCore_cases cmp ((st.world.createH dev).2.dev (.lib st.world.made)) st.file.io with
          ⟨l, hl⟩ | he
        · exact absurd hl (hno l)
        · simp [he, Res.failed]

/-- `C34_open_name_iff` for every state with the invariant. -/
theorem openName_iff (cmp : Bytes → Bytes → Option Bool) (st : FileState)
    (hi : Inv st) (dev : Dev) (flags : Nat) (flt : Faults) :
    ((openName cmp dev flags flt st).1 = .ok () ↔
      st.file.handle = none ∧ flags % 4 = 1 ∧ flt.create = false ∧ flt.setName = false ∧
      flt.isOpen = false ∧ flt.opening = false ∧
      ∃ l, (openCore cmp dev .cleared).1.res = .ok l) ∧
    ((openName cmp dev flags flt st).1 = .ok () ∨ (openName cmp dev flags flt st).1 = .err) := by
  have hi' : ({ file := st.file, world := (st.world.createH dev).2 } : FileState).file.handle = none →
      ({ file := st.file, world := (st.world.createH dev).2 } : FileState).file.Empty := hi.closed
  have hdev : (st.world.createH dev).2.dev (.lib st.world.made) = dev := by simp [World.createH]
  have hop : (st.world.createH dev).2.isOpen (.lib st.world.made) = false := by simp [World.createH]
  rw [openName_eq, (openCore_io cmp dev .cleared st.file.io).1, ← readOnly_iff]
  cases hcr : flt.create
  · cases hsn : flt.setName
    · simp only [Bool.false_eq_true, if_false]
      rcases openHandle_spec (cmp := cmp) (h := .lib st.world.made) (flags := flags) (flt := flt)
        (st := ⟨st.file, (st.world.createH dev).2⟩) hi' with
        ⟨hc, h1⟩ | ⟨⟨a, b, c, d⟩, ⟨l, hl, h1⟩ | ⟨hno, h1⟩⟩
      · rw [h1]
        simp only [hop] at hc
        simp only [reduceCtorEq, if_false, false_iff, or_true, and_true]
        rintro ⟨a, b, _, _, c, d, _⟩
        rcases hc with hc | hc | hc | ⟨_, hc⟩
        · rw [a] at hc; cases hc
        · exact absurd b hc
        · rw [c] at hc; cases hc
        · rw [d] at hc; cases hc
      · rw [h1]
        rw [hop] at d
        rw [hdev] at hl
        simp only [Bool.false_eq_true, false_or] at d
        simp only [if_true, true_iff, true_or, and_true]
        exact ⟨a, b, trivial, trivial, c, d, l, hl⟩
      · rw [h1]
        rw [hdev] at hno ⊢
        rcases openCore_cases cmp dev st.file.io with ⟨l, hl⟩ | he
        · exact absurd hl (hno l)
        · simp [he, Res.failed]
    · simp
  · simp

/-- Opening by name succeeds exactly if the file is closed, read access and no write access is asked
  for, no call to libbfio fails and the content can be loaded. -/
theorem C34_open_name_iff (cmp : Bytes → Bytes → Option Bool) (st : FileState)
    (hst : Reachable cmp st) (dev : Dev) (flags : Nat) (flt : Faults) :
    ((openName cmp dev flags flt st).1 = .ok () ↔
      st.file.handle = none ∧ flags % 4 = 1 ∧ flt.create = false ∧ flt.setName = false ∧
      flt.isOpen = false ∧ flt.opening = false ∧
      ∃ l, (openCore cmp dev .cleared).1.res = .ok l) ∧
    ((openName cmp dev flags flt st).1 = .ok () ∨ (openName cmp dev flags flt st).1 = .err) :=
  openName_iff cmp st (reachable_inv hst) dev flags flt

/-- Opening an open file fails; neither the file object nor any handle of the caller changes. -/
theorem C34_open_when_open (cmp : Bytes → Bytes → Option Bool) (st : FileState)
    (hopen : st.file.handle.isSome) (flags : Nat) (flt : Faults) :
    (∀ h, openHandle cmp h flags flt st = (.err, st)) ∧
    ∀ dev, (openName cmp dev flags flt st).1 = .err ∧ (openName cmp dev flags flt st).2.file = st.file ∧
      ∀ k, k ≠ .lib st.world.made →
        (openName cmp dev flags flt st).2.world.isOpen k = st.world.isOpen k ∧
        (openName cmp dev flags flt st).2.world.dev k = st.world.dev k := by
  have h0 : ∀ (st : FileState) h, st.file.handle.isSome → openHandle cmp h flags flt st = (.err, st) := by
    intro st h hh
    unfold openHandle
    rw [if_pos hh]
  refine ⟨fun h => h0 st h hopen, fun dev => ?_⟩
  rw [openName_eq]
  split
  · simp
  · split
    · simp +contextual [World.freeH, World.createH]
    · have := h0 ⟨st.file, (st.world.createH dev).2⟩ (.lib st.world.made) hopen
      simp only [this, reduceCtorEq, if_false]
      simp +contextual [World.freeH, World.createH]

/-- Closing a closed file fails and changes nothing. -/
theorem C34_close_when_closed (st : FileState) (h : st.file.handle = none) (flt : Faults) :
    closeFile flt st = (.err, st) := by
  unfold closeFile
  rw [h]

/-- `C34_close_resets` for every state with the invariant. -/
theorem closeFile_resets (st : FileState)
    (hi : Inv st) (h : st.file.handle.isSome) (flt : Faults) :
    (closeFile flt st).2.file = OleFile.new ∧
    ((closeFile flt st).1 = .ok () ↔
      (st.file.openedInLibrary = true → flt.closing = false) ∧
      (st.file.createdInLibrary = true → flt.free = false)) ∧
    ((closeFile flt st).1 = .ok () ∨ (closeFile flt st).1 = .err) := by
  obtain ⟨k, hk⟩ := Option.isSome_iff_exists.1 h
  have ho := (hi.isOpen k hk).1
  rw [closeFile_eq hk]
  refine ⟨rfl, ?_⟩
  have hcl : (st.world.closeH flt k).1 = !flt.closing := by
    unfold World.closeH
    rw [ho]
    cases flt.closing <;> simp
  rw [hcl]
  cases st.file.openedInLibrary <;> cases st.file.createdInLibrary <;> cases flt.closing <;>
    cases flt.free <;> simp

/-- Closing an open file makes it a new file object, even if closing the handle fails; the outcome
  says whether a call to libbfio that had to be made failed. -/
theorem C34_close_resets (cmp : Bytes → Bytes → Option Bool) (st : FileState)
    (hst : Reachable cmp st) (h : st.file.handle.isSome) (flt : Faults) :
    (closeFile flt st).2.file = OleFile.new ∧
    ((closeFile flt st).1 = .ok () ↔
      (st.file.openedInLibrary = true → flt.closing = false) ∧
      (st.file.createdInLibrary = true → flt.free = false)) ∧
    ((closeFile flt st).1 = .ok () ∨ (closeFile flt st).1 = .err) :=
  closeFile_resets st (reachable_inv hst) h flt

theorem openAfter_cons (b : Bool) (op : FileOp) (r : Res Unit) (rest : List (FileOp × Res Unit)) :
    openAfter b ((op, r) :: rest) = openAfter (match op with
      | .openHandle _ _ _ => b || decide (r = .ok ())
      | .openName _ _ _ => b || decide (r = .ok ())
      | .close _ => false
      | _ => b) rest := by
  cases op <;> cases r <;> simp [openAfter]

theorem run_handle {cmp : Bytes → Bytes → Option Bool} {st : FileState} (hi : Inv st) (op : FileOp) :
    (op.run cmp st).2.file.handle.isSome = match op with
      | .openHandle _ _ _ => st.file.handle.isSome || decide ((op.run cmp st).1 = .ok ())
      | .openName _ _ _ => st.file.handle.isSome || decide ((op.run cmp st).1 = .ok ())
      | .close _ => false
      | _ => st.file.handle.isSome := by
  cases op with
  | openHandle n flags flt => exact openHandle_handle hi _ _ _
  | openName dev flags flt => exact openName_handle hi _ _ _
  | close flt =>
    simp only [FileOp.run]
    cases h : st.file.handle with
    | none => rw [C34_close_when_closed st h]; simp [h]
    | some k => rw [closeFile_eq h]; rfl
  | setCodepage cp =>
    simp only [FileOp.run, setCodepage]
    split <;> rfl
  | signalAbort => rfl
  | caller n b dev =>
    simp only [FileOp.run]
    split <;> rfl

/-- Open and closed are the two states of a file object: over every history of calls the file is
  open exactly if the last open or close that had an effect was a successful open. -/
theorem C34_two_states (cmp : Bytes → Bytes → Option Bool) (st : FileState) (h : Initial st)
    (ops : List FileOp) :
    (runOps cmp st ops).file.handle.isSome = openAfter false (ops.zip (outcomes cmp st ops)) := by
  have : ∀ (ops : List FileOp) (st : FileState), Inv st →
      (runOps cmp st ops).file.handle.isSome =
        openAfter st.file.handle.isSome (ops.zip (outcomes cmp st ops)) := by
    intro ops
    induction ops with
    | nil => intro st _; rfl
    | cons op ops ih =>
      intro st hi
      show (runOps cmp (op.run cmp st).2 ops).file.handle.isSome = _
      rw [ih _ (inv_run hi op), run_handle hi op, outcomes, List.zip_cons_cons, openAfter_cons]
  rw [this ops st (inv_initial h)]
  rw [h.1]
  rfl

end Olecf.Props
