import Verif.Props.Handles

/-
  C36: failed opens; C37: the code page.
-/

namespace Olecf.Props
open Olecf.Spec

/-! ### C37 -/

theorem codepage_openCore (cmp : Bytes → Bytes → Option Bool) (dev : Dev) (io : IoHandle) :
    (openCore cmp dev io).2.codepage = io.codepage := by
  have key : ∀ {α β : Type} (io : IoHandle) (o : Out α) (f : α → Out β × IoHandle),
      (∀ a, (f a).2.codepage = io.codepage) → (o.andThen io f).2.codepage = io.codepage := by
    intro α β io o f h
    unfold Out.andThen
    cases o.res <;> simp [h]
  rw [openCore_eq]
  refine key _ _ _ fun x => ?_
  have h0 : io.codepage = (io.withHeader x.1).codepage := rfl
  rw [h0]
  refine key _ _ _ fun m => key _ _ _ fun s => key _ _ _ fun ss => key _ _ _ fun _ => ?_
  have h1 : ∀ (io : IoHandle) s, (io.withShortStart s).codepage = io.codepage := by
    intro io s; cases s <;> rfl
  generalize createTree _ _ = t
  have h2 := h1 (io.withHeader x.1) t.shortStart
  exact (key ((io.withHeader x.1).withShortStart t.shortStart) _ _ fun _ => rfl).trans h2

/-- Setting the code page succeeds exactly for the 15 supported values; then the getter returns the
  value and nothing else changed; a failed set changes nothing. -/
theorem C37_set_codepage (file : OleFile) (cp : Int) :
    ((setCodepage file cp).1 = .ok () ↔
      cp = 20127 ∨ cp = 874 ∨ cp = 932 ∨ cp = 936 ∨ cp = 949 ∨ cp = 950 ∨ (1250 ≤ cp ∧ cp ≤ 1258)) ∧
    ((setCodepage file cp).1 = .ok () →
      getCodepage (setCodepage file cp).2 = cp ∧
      { (setCodepage file cp).2 with io := { (setCodepage file cp).2.io with codepage := file.io.codepage } }
        = file) ∧
    ((setCodepage file cp).1 ≠ .ok () →
      (setCodepage file cp).1 = .err ∧ (setCodepage file cp).2 = file) := by
  have hm : cp ∈ codepages ↔ (cp = 20127 ∨ cp = 874 ∨ cp = 932 ∨ cp = 936 ∨ cp = 949 ∨ cp = 950 ∨
      (1250 ≤ cp ∧ cp ≤ 1258)) := by
    simp only [codepages, List.mem_cons, List.not_mem_nil, or_false]
    omega
  rw [← hm]
  unfold setCodepage getCodepage
  by_cases h : cp ∈ codepages
  · simp [h]
  · simp [h]

theorem codepageAfter_cons (s : Bool × Int) (op : FileOp) (r : Res Unit)
    (rest : List (FileOp × Res Unit)) :
    codepageAfter s ((op, r) :: rest) = codepageAfter (match op with
      | .openHandle _ _ _ => (s.1 || decide (r = .ok ()), s.2)
      | .openName _ _ _ => (s.1 || decide (r = .ok ()), s.2)
      | .close _ => (false, if s.1 then 1252 else s.2)
      | .setCodepage cp => (s.1, if r = .ok () then cp else s.2)
      | _ => s) rest := by
  cases op <;> cases r <;> simp [codepageAfter]

theorem openHandle_codepage {cmp : Bytes → Bytes → Option Bool} {st : FileState} (hi : Inv st)
    (h : HandleId) (flags : Nat) (flt : Faults) :
    (openHandle cmp h flags flt st).2.file.io.codepage = st.file.io.codepage := by
  rcases openHandle_spec (cmp := cmp) (h := h) (flags := flags) (flt := flt) hi.closed with
    ⟨hc, h1⟩ | ⟨⟨a, b, c, d⟩, ⟨l, hl, h1⟩ | ⟨hno, h1⟩⟩
  · rw [h1]
  · rw [h1]; exact codepage_openCore _ _ _
  · rw [h1]; exact codepage_openCore _ _ _

theorem openName_codepage {cmp : Bytes → Bytes → Option Bool} {st : FileState} (hi : Inv st)
    (dev : Dev) (flags : Nat) (flt : Faults) :
    (openName cmp dev flags flt st).2.file.io.codepage = st.file.io.codepage := by
  rw [openName_eq]
  have key : (openHandle cmp (.lib st.world.made) flags flt
      ⟨st.file, (st.world.createH dev).2⟩).2.file.io.codepage = st.file.io.codepage := by
    rcases openHandle_spec (cmp := cmp) (h := .lib st.world.made) (flags := flags) (flt := flt)
      (st := ⟨st.file, (st.world.createH dev).2⟩) hi.closed with
      ⟨hc, h1⟩ | ⟨⟨a, b, c, d⟩, ⟨l, hl, h1⟩ | ⟨hno, h1⟩⟩
    · rw [h1]
    · rw [h1]; exact codepage_openCore _ _ _
    · rw [h1]; exact codepage_openCore _ _ _
  split
  · rfl
  · split
    · rfl
    · simp only
      split <;> exact key

theorem run_codepage {cmp : Bytes → Bytes → Option Bool} {st : FileState} (hi : Inv st) (op : FileOp) :
    getCodepage (op.run cmp st).2.file = match op with
      | .close _ => if st.file.handle.isSome then 1252 else getCodepage st.file
      | .setCodepage cp => if (op.run cmp st).1 = .ok () then cp else getCodepage st.file
      | _ => getCodepage st.file := by
  cases op with
  | openHandle n flags flt => exact openHandle_codepage hi _ _ _
  | openName dev flags flt => exact openName_codepage hi _ _ _
  | close flt =>
    simp only [FileOp.run]
    cases h : st.file.handle with
    | none => rw [C34_close_when_closed st h]; simp
    | some k => rw [closeFile_eq h]; rfl
  | setCodepage cp =>
    show getCodepage (setCodepage st.file cp).2 =
      if (setCodepage st.file cp).1 = .ok () then cp else getCodepage st.file
    by_cases h : (setCodepage st.file cp).1 = .ok ()
    · rw [if_pos h]; exact ((C37_set_codepage st.file cp).2.1 h).1
    · rw [if_neg h, ((C37_set_codepage st.file cp).2.2 h).2]
  | signalAbort => rfl
  | caller n b dev =>
    simp only [FileOp.run]
    split <;> rfl

/-- Over every history the getter returns the last code page that was set with success since the
  last time an open file was closed, or 1252; opening, with or without success, does not change
  it. -/
theorem C37_codepage_history (cmp : Bytes → Bytes → Option Bool) (st : FileState) (h : Initial st)
    (ops : List FileOp) :
    getCodepage (runOps cmp st ops).file =
      (codepageAfter (false, 1252) (ops.zip (outcomes cmp st ops))).2 := by
  have : ∀ (ops : List FileOp) (st : FileState), Inv st →
      getCodepage (runOps cmp st ops).file = (codepageAfter
        (st.file.handle.isSome, getCodepage st.file) (ops.zip (outcomes cmp st ops))).2 := by
    intro ops
    induction ops with
    | nil => intro st _; rfl
    | cons op ops ih =>
      intro st hi
      show getCodepage (runOps cmp (op.run cmp st).2 ops).file = _
      rw [ih _ (inv_run hi op), run_handle hi op, run_codepage hi op, outcomes, List.zip_cons_cons,
        codepageAfter_cons]
      cases op <;> rfl
  rw [this ops st (inv_initial h), h.1]
  rfl

/-! ### C36 -/

/-- What is left behind when the file of the header `sampleHeader` and nothing else is opened. -/
def headerOnly : Bool × Nat × Nat × Nat × Nat :=
  match openCore cmpNone (Dev.ofBytes (encodeHeader .little sampleHeader)) .cleared with
  | (o, io) => (match o.res with | .err => true | _ => false, io.sectorSize, io.shortSectorSize,
      io.majorVersion, io.minorVersion)

theorem headerOnly_eq : headerOnly = (true, 512, 64, 3, 0x3e) := by decide +kernel

/-- The properties of a closed file after a failed open are those of the file that could not be
  opened: `libolecf_file_get_sector_size` etc. do not answer as before.  The file is a header and
  nothing else. -/
theorem C36_failed_open_changes_getters_violated :
    ∃ f : Bytes, ∀ (w : World) (n : Nat), w.dev (.user n) = Dev.ofBytes f →
      let st : FileState := ⟨OleFile.new, w⟩
      (openHandle cmpNone (.user n) 1 {} st).1 = .err ∧
      getSectorSize st.file = .ok 0 ∧
      getSectorSize (openHandle cmpNone (.user n) 1 {} st).2.file = .ok 512 ∧
      getShortSectorSize (openHandle cmpNone (.user n) 1 {} st).2.file = .ok 64 ∧
      getFormatVersion (openHandle cmpNone (.user n) 1 {} st).2.file = (3, 0x3e) := by
  refine ⟨encodeHeader .little sampleHeader, fun w n hw => ?_⟩
  have hz := headerOnly_eq
  unfold headerOnly at hz
  have he : (OleFile.new).handle = none → (OleFile.new).Empty := fun _ => ⟨rfl, rfl, rfl, rfl, rfl, rfl⟩
  rcases openHandle_spec (cmp := cmpNone) (h := .user n) (flags := 1) (flt := {})
    (st := ⟨OleFile.new, w⟩) he with
      ⟨hc, h1⟩ | ⟨⟨a, b, c, d⟩, ⟨l, hl, h1⟩ | ⟨hno, h1⟩⟩
  · rcases hc with h | h | h | h
    · cases h
    · exact absurd ((readOnly_iff 1).2 rfl) h
    · cases h
    · cases h.2
  · simp only [hw] at hl
    have hio : OleFile.new.io = IoHandle.cleared := rfl
    rw [hio] at hl
    revert hl hz
    cases openCore cmpNone (Dev.ofBytes (encodeHeader .little sampleHeader)) .cleared with
    | mk o io => intro hz hl; simp only at hl hz; rw [hl] at hz; simp at hz
  · simp only [hw] at h1
    have hio : OleFile.new.io = IoHandle.cleared := rfl
    rw [hio] at h1
    revert h1 hz
    cases openCore cmpNone (Dev.ofBytes (encodeHeader .little sampleHeader)) .cleared with
    | mk o io =>
      intro hz h1
      simp only [Prod.mk.injEq] at hz
      obtain ⟨z1, z2, z3, z4, z5⟩ := hz
      intro st
      show (openHandle cmpNone (.user n) 1 {} ⟨OleFile.new, w⟩).1 = _ ∧ _
      rw [show openHandle cmpNone (.user n) 1 {} st = _ from h1]
      simp only
      refine ⟨?_, rfl, ?_, ?_, ?_⟩
      · revert z1; cases o.res <;> simp [Res.failed]
      · simp [getSectorSize, z2]
      · simp [getShortSectorSize, z3]
      · simp [getFormatVersion, z4, z5]

theorem getSectorSize_congr {f g : OleFile} (h : f.io.sectorSize = g.io.sectorSize) :
    getSectorSize f = getSectorSize g := by
  unfold getSectorSize; rw [h]

theorem getShortSectorSize_congr {f g : OleFile} (h : f.io.shortSectorSize = g.io.shortSectorSize) :
    getShortSectorSize f = getShortSectorSize g := by
  unfold getShortSectorSize; rw [h]

/-- The files agree in everything but the numbers of handles the library made and, while closed, the
  values read from a file. -/
theorem sameToUser_openHandle {cmp : Bytes → Bytes → Option Bool} {a b : FileState}
    (hs : SameToUser a b) (ha : a.file.handle = none → a.file.Empty)
    (hb : b.file.handle = none → b.file.Empty) (h h' : HandleId) (hdev : a.world.dev h = b.world.dev h')
    (hop : a.world.isOpen h = b.world.isOpen h')
    (hhh : (∃ n, h = .user n ∧ h' = .user n) ∨ ∃ n m, h = .lib n ∧ h' = .lib m)
    (flags : Nat) (flt : Faults) :
    (openHandle cmp h flags flt a).1 = (openHandle cmp h' flags flt b).1 ∧
    SameToUser (openHandle cmp h flags flt a).2 (openHandle cmp h' flags flt b).2 := by
  have hcond := hs.isOpen
  have hcore := openCore_io cmp (b.world.dev h') a.file.io b.file.io
  have hhu : ∀ n, (h = .user n ↔ h' = .user n) := by
    rcases hhh with ⟨m, rfl, rfl⟩ | ⟨k, m, rfl, rfl⟩ <;> simp
  have hcp := hs.codepage
  simp only [getCodepage] at hcp
  have hresa : (openCore cmp (a.world.dev h) a.file.io).1 = (openCore cmp (b.world.dev h') b.file.io).1 := by
    rw [hdev]; exact hcore.1
  rcases openHandle_spec (cmp := cmp) (h := h) (flags := flags) (flt := flt) ha with
    ⟨hc, h1⟩ | ⟨⟨a1, b1, c1, d1⟩, ⟨l, hl, h1⟩ | ⟨hno, h1⟩⟩
  · rcases openHandle_spec (cmp := cmp) (h := h') (flags := flags) (flt := flt) hb with
      ⟨hc2, h2⟩ | ⟨⟨a2, b2, c2, d2⟩, _⟩
    · rw [h1, h2]; exact ⟨rfl, hs⟩
    · exfalso
      rcases hc with hc | hc | hc | ⟨hc, hc'⟩
      · rw [hcond, a2] at hc; cases hc
      · exact hc b2
      · rw [c2] at hc; cases hc
      · rw [← hop, hc, hc'] at d2; simp at d2
  · rcases openHandle_spec (cmp := cmp) (h := h') (flags := flags) (flt := flt) hb with
      ⟨hc2, h2⟩ | ⟨⟨a2, b2, c2, d2⟩, ⟨l2, hl2, h2⟩ | ⟨hno2, h2⟩⟩
    · exfalso
      rcases hc2 with hc | hc | hc | ⟨hc, hc'⟩
      · rw [← hcond, a1] at hc; cases hc
      · exact hc b1
      · rw [c1] at hc; cases hc
      · rw [hop, hc, hc'] at d1; simp at d1
    · have hll : l = l2 := by
        rw [hresa, hl2] at hl; cases hl; rfl
      subst hll
      rw [h1, h2]
      refine ⟨rfl, ?_⟩
      rw [hdev] at hl ⊢
      obtain ⟨hdr, s, e1, e2, e3⟩ := hcore.2 l hl
      rw [e1, e2]
      have ea := ensureOpen_isOpen a.world h
      have eb := ensureOpen_isOpen b.world h'
      have ss : ∀ (io io' : IoHandle) (s : Option Nat),
          ((io.withHeader hdr).withShortStart s).sectorSize = hdr.sectorSize ∧
          ((io.withHeader hdr).withShortStart s).shortSectorSize = hdr.shortSectorSize ∧
          ((io.withHeader hdr).withShortStart s).majorVersion = hdr.majorVersion ∧
          ((io.withHeader hdr).withShortStart s).minorVersion = hdr.minorVersion ∧
          ((io.withHeader hdr).withShortStart s).codepage = io.codepage ∧
          (s.isSome → io.codepage = io'.codepage → (io.withHeader hdr).withShortStart s =
            (io'.withHeader hdr).withShortStart s) := by
        intro io io' s
        cases s with
        | none => exact ⟨rfl, rfl, rfl, rfl, rfl, by simp⟩
        | some s =>
          refine ⟨rfl, rfl, rfl, rfl, rfl, fun _ hcp => ?_⟩
          simp [IoHandle.withHeader, IoHandle.withShortStart, hcp]
      have sa := ss a.file.io b.file.io s
      have sb := ss b.file.io a.file.io s
      refine ⟨rfl, ?_, ?_, ?_, hs.abort, rfl, rfl, rfl, rfl, ?_, ?_, ?_, ?_, ?_, ?_, ?_⟩
      · intro n; simp only [OleFile.loaded, Option.some.injEq]; exact hhu n
      · simp only [OleFile.loaded]; rw [hop]
      · exact hs.createdInLibrary
      · show _ = _
        simp only [getCodepage, OleFile.loaded]; rw [sa.2.2.2.2.1, sb.2.2.2.2.1, hcp]
      · intro _; exact getSectorSize_congr (sa.1.trans sb.1.symm)
      · intro _; exact getShortSectorSize_congr (sa.2.1.trans sb.2.1.symm)
      · intro _; simp only [getFormatVersion, OleFile.loaded]; rw [sa.2.2.1, sb.2.2.1, sa.2.2.2.1, sb.2.2.2.1]
      · intro k k' hk hk' ht
        simp only [OleFile.loaded, Option.some.injEq] at hk hk'
        subst hk hk'
        simp only [OleFile.loaded] at ht
        simp only [OleFile.ctx, OleFile.loaded, ea.2.2.1, eb.2.2.1, hdev]
        rw [sa.2.2.2.2.2 (by rw [e3]; simpa using ht) hcp]
      · intro n
        by_cases hk : h = .user n
        · have hk' := (hhu n).1 hk
          subst hk; rw [hk'] at eb
          simp only
          rw [ea.1]
          rw [hk']
          exact eb.1.symm
        · have hk' : ¬ h' = .user n := fun h => hk ((hhu n).2 h)
          simp only
          rw [ea.2.2.2 _ (Ne.symm hk), eb.2.2.2 _ (Ne.symm hk'), hs.handles]
      · intro n
        simp only [ea.2.2.1, eb.2.2.1, hs.devices]
    · exact absurd (by rw [← hresa]; exact hl) (hno2 l)
  · rcases openHandle_spec (cmp := cmp) (h := h') (flags := flags) (flt := flt) hb with
      ⟨hc2, h2⟩ | ⟨⟨a2, b2, c2, d2⟩, ⟨l2, hl2, h2⟩ | ⟨hno2, h2⟩⟩
    · exfalso
      rcases hc2 with hc | hc | hc | ⟨hc, hc'⟩
      · rw [← hcond, a1] at hc; cases hc
      · exact hc b1
      · rw [c1] at hc; cases hc
      · rw [hop, hc, hc'] at d1; simp at d1
    · exact absurd (by rw [hresa]; exact hl2) (hno l2)
    · rw [h1, h2]
      refine ⟨by rw [hresa], ?_⟩
      have ea := ensureOpen_isOpen a.world h
      have eb := ensureOpen_isOpen b.world h'
      refine ⟨hs.isOpen, hs.userHandle, hs.openedInLibrary, hs.createdInLibrary, hs.abort, hs.msat, hs.sat,
        hs.ssat, hs.tree, ?_, by simp [a1], by simp [a1], by simp [a1], by simp [a1], ?_, ?_⟩
      · simp only [getCodepage, codepage_openCore, hcp]
      · intro n
        simp only
        rw [hop]
        split
        · exact hs.handles n
        · rename_i hno
          have hbo : b.world.isOpen h' = false := by simpa using hno
          by_cases hk : h = .user n
          · have hk' := (hhu n).1 hk
            subst hk hk'
            unfold World.closeH
            rw [ea.1, eb.1]
            cases flt.closing <;> simp [ea.1, eb.1]
          · have hk' : ¬ h' = .user n := fun h => hk ((hhu n).2 h)
            rw [(closeH_event _ _ _).2.2.1 _ (Ne.symm hk), (closeH_event _ _ _).2.2.1 _ (Ne.symm hk'),
              ea.2.2.2 _ (Ne.symm hk), eb.2.2.2 _ (Ne.symm hk'), hs.handles]
      · intro n
        simp only
        rw [hop]
        split
        · exact hs.devices n
        · rw [(closeH_event _ _ _).2.1, (closeH_event _ _ _).2.1, ea.2.2.1, eb.2.2.1, hs.devices]

theorem sameToUser_openName {cmp : Bytes → Bytes → Option Bool} {a b : FileState}
    (hs : SameToUser a b) (ha : Inv a) (hb : Inv b) (dev : Dev) (flags : Nat) (flt : Faults) :
    (openName cmp dev flags flt a).1 = (openName cmp dev flags flt b).1 ∧
    SameToUser (openName cmp dev flags flt a).2 (openName cmp dev flags flt b).2 := by
  have hcre : SameToUser ⟨a.file, (a.world.createH dev).2⟩ ⟨b.file, (b.world.createH dev).2⟩ := by
    refine ⟨hs.isOpen, hs.userHandle, hs.openedInLibrary, hs.createdInLibrary, hs.abort, hs.msat, hs.sat,
      hs.ssat, hs.tree, hs.codepage, hs.sectorSize, hs.shortSectorSize, hs.version, ?_, ?_, ?_⟩
    · intro h h' hh hh' ht
      have := hs.data h h' hh hh' ht
      have h1 : h ≠ .lib a.world.made := by rintro rfl; exact ha.fresh _ (Nat.le_refl _) hh
      have h2 : h' ≠ .lib b.world.made := by rintro rfl; exact hb.fresh _ (Nat.le_refl _) hh'
      simpa [World.createH, h1, h2] using this
    · intro n; simpa [World.createH] using hs.handles n
    · intro n; simpa [World.createH] using hs.devices n
  have hfree : ∀ {x y : FileState}, SameToUser x y →
      ∀ n m : Nat, SameToUser ⟨x.file, x.world.freeH (.lib n)⟩ ⟨y.file, y.world.freeH (.lib m)⟩ := by
    intro x y hxy n m
    refine ⟨hxy.isOpen, hxy.userHandle, hxy.openedInLibrary, hxy.createdInLibrary, hxy.abort, hxy.msat,
      hxy.sat, hxy.ssat, hxy.tree, hxy.codepage, hxy.sectorSize, hxy.shortSectorSize, hxy.version,
      hxy.data, ?_, hxy.devices⟩
    intro k; simpa [World.freeH] using hxy.handles k
  rw [openName_eq, openName_eq]
  cases flt.create
  · cases flt.setName
    · obtain ⟨h1, h2⟩ := sameToUser_openHandle (cmp := cmp) hcre ha.closed hb.closed (.lib a.world.made)
        (.lib b.world.made) (by simp [World.createH]) (by simp [World.createH])
        (Or.inr ⟨_, _, rfl, rfl⟩) flags flt
      simp only [Bool.false_eq_true, if_false]
      rw [h1]
      split
      · refine ⟨rfl, ?_⟩
        exact ⟨h2.isOpen, h2.userHandle, h2.openedInLibrary, rfl, h2.abort, h2.msat,
          h2.sat, h2.ssat, h2.tree, h2.codepage, h2.sectorSize, h2.shortSectorSize, h2.version,
          h2.data, h2.handles, h2.devices⟩
      · exact ⟨rfl, hfree h2 _ _⟩
    · exact ⟨rfl, hfree hcre _ _⟩
  · exact ⟨rfl, hs⟩

theorem sameToUser_close {a b : FileState}
    (hs : SameToUser a b) (ha : Inv a) (hb : Inv b) (flt : Faults) :
    (closeFile flt a).1 = (closeFile flt b).1 ∧
    SameToUser (closeFile flt a).2 (closeFile flt b).2 := by
  have hso := hs.isOpen
  cases hh : a.file.handle with
  | none =>
    rw [hh] at hso
    have hh' : b.file.handle = none := by simpa using hso.symm
    rw [C34_close_when_closed a hh, C34_close_when_closed b hh']
    exact ⟨rfl, hs⟩
  | some k =>
    rw [hh] at hso
    obtain ⟨k', hh'⟩ : ∃ k', b.file.handle = some k' := Option.isSome_iff_exists.1 (by simpa using hso.symm)
    rw [closeFile_eq hh, closeFile_eq hh']
    have oa := (ha.isOpen k hh).1
    have ob := (hb.isOpen k' hh').1
    have hcl : ∀ (w : World) h, w.isOpen h = true → (w.closeH flt h).1 = !flt.closing := by
      intro w h ho
      unfold World.closeH
      rw [ho]
      cases flt.closing <;> simp
    rw [hcl _ _ oa, hcl _ _ ob, hs.openedInLibrary, hs.createdInLibrary]
    refine ⟨rfl, ?_⟩
    have hku : ∀ n, k = .user n ↔ k' = .user n := by
      intro n
      have := hs.userHandle n
      rw [hh, hh'] at this
      simpa using this
    have hiso : ∀ n, (if b.file.openedInLibrary = true then (a.world.closeH flt k).2 else a.world).isOpen
        (.user n) =
        (if b.file.openedInLibrary = true then (b.world.closeH flt k').2 else b.world).isOpen (.user n) := by
      intro n
      split
      · by_cases hk : k = .user n
        · have hk' := (hku n).1 hk
          subst hk hk'
          unfold World.closeH
          rw [oa, ob]
          cases flt.closing <;> simp [oa, ob]
        · have hk' : ¬ k' = .user n := fun h => hk ((hku n).2 h)
          rw [(closeH_event _ _ _).2.2.1 _ (Ne.symm hk), (closeH_event _ _ _).2.2.1 _ (Ne.symm hk'),
            hs.handles]
      · exact hs.handles n
    have hdv : ∀ n, (if b.file.openedInLibrary = true then (a.world.closeH flt k).2 else a.world).dev
        (.user n) =
        (if b.file.openedInLibrary = true then (b.world.closeH flt k').2 else b.world).dev (.user n) := by
      intro n
      split
      · rw [(closeH_event _ _ _).2.1, (closeH_event _ _ _).2.1, hs.devices]
      · exact hs.devices n
    refine ⟨rfl, by simp [OleFile.new], rfl, rfl, rfl, rfl, rfl, rfl, rfl, rfl, by simp, by simp, by simp,
      by simp [OleFile.new], ?_, ?_⟩
    · intro n
      simp only
      split
      · have : ∀ w : World, ∀ h, (w.freeH h).isOpen (.user n) = if h = .user n then false else w.isOpen (.user n) := by
          intro w h
          simp only [World.freeH, eq_comm]
        rw [this, this, hiso]
        by_cases hk : k = .user n
        · rw [if_pos hk, if_pos ((hku n).1 hk)]
        · rw [if_neg hk, if_neg (fun h => hk ((hku n).2 h))]
      · exact hiso n
    · intro n
      simp only
      split
      · exact hdv n
      · exact hdv n

theorem sameToUser_run {cmp : Bytes → Bytes → Option Bool} {a b : FileState}
    (hs : SameToUser a b) (ha : Inv a) (hb : Inv b) (op : FileOp) :
    (op.run cmp a).1 = (op.run cmp b).1 ∧ SameToUser (op.run cmp a).2 (op.run cmp b).2 := by
  cases op with
  | openHandle n flags flt =>
    exact sameToUser_openHandle hs ha.closed hb.closed (.user n) (.user n) (hs.devices n) (hs.handles n)
      (Or.inl ⟨n, rfl, rfl⟩) flags flt
  | openName dev flags flt => exact sameToUser_openName hs ha hb dev flags flt
  | close flt => exact sameToUser_close hs ha hb flt
  | setCodepage cp =>
    simp only [FileOp.run, setCodepage]
    split
    · exact ⟨rfl, hs⟩
    · refine ⟨rfl, hs.isOpen, hs.userHandle, hs.openedInLibrary, hs.createdInLibrary, hs.abort, hs.msat,
        hs.sat, hs.ssat, hs.tree, rfl, hs.sectorSize, hs.shortSectorSize, hs.version, ?_, hs.handles,
        hs.devices⟩
      intro h h' hh hh' ht
      have := hs.data h h' hh hh' ht
      obtain ⟨_, _, _, _, s2, s3⟩ := ha.isOpen h hh
      obtain ⟨x, hx⟩ := Option.isSome_iff_exists.1 s2
      obtain ⟨y, hy⟩ := Option.isSome_iff_exists.1 s3
      have hx' := hs.sat ▸ hx
      have hy' := hs.ssat ▸ hy
      simp only [OleFile.ctx, hx, hy, hx', hy', Option.some.injEq, FileCtx.mk.injEq] at this ⊢
      obtain ⟨t1, t2, t3, t4⟩ := this
      exact ⟨by rw [t1], t2, t3, t4⟩
  | signalAbort =>
    exact ⟨rfl, hs.isOpen, hs.userHandle, hs.openedInLibrary, hs.createdInLibrary, rfl, hs.msat,
        hs.sat, hs.ssat, hs.tree, hs.codepage, hs.sectorSize, hs.shortSectorSize, hs.version, hs.data,
        hs.handles, hs.devices⟩
  | caller n b' dev =>
    refine ⟨rfl, ?_⟩
    simp only [FileOp.run]
    by_cases hn : a.file.handle = some (.user n)
    · rw [if_pos hn, if_pos ((hs.userHandle n).1 hn)]; exact hs
    · rw [if_neg hn, if_neg (fun h => hn ((hs.userHandle n).2 h))]
      refine ⟨hs.isOpen, hs.userHandle, hs.openedInLibrary, hs.createdInLibrary, hs.abort, hs.msat,
        hs.sat, hs.ssat, hs.tree, hs.codepage, hs.sectorSize, hs.shortSectorSize, hs.version, ?_, ?_, ?_⟩
      · intro h h' hh hh' ht
        have h1 : h ≠ .user n := by rintro rfl; exact hn hh
        have h2 : h' ≠ .user n := by rintro rfl; exact hn ((hs.userHandle n).2 hh')
        simpa [h1, h2] using hs.data h h' hh hh' ht
      · intro m
        simp only
        split
        · rfl
        · exact hs.handles m
      · intro m
        simp only
        split
        · rfl
        · exact hs.devices m

theorem sameToUser_ops {cmp : Bytes → Bytes → Option Bool} (ops : List FileOp) :
    ∀ {a b : FileState}, SameToUser a b → Inv a → Inv b →
      outcomes cmp a ops = outcomes cmp b ops ∧ SameToUser (runOps cmp a ops) (runOps cmp b ops) := by
  induction ops with
  | nil => intro a b hs _ _; exact ⟨rfl, hs⟩
  | cons op ops ih =>
    intro a b hs ha hb
    obtain ⟨h1, h2⟩ := sameToUser_run (cmp := cmp) hs ha hb op
    obtain ⟨h3, h4⟩ := ih h2 (inv_run ha op) (inv_run hb op)
    exact ⟨by rw [outcomes, outcomes, h1, h3], h4⟩

/-- C36 without the properties of the closed file (`C36_failed_open_changes_getters_violated`): after
  a failed open of a closed file everything a user sees is as before the attempt, and after any
  further history too: all calls have the same outcomes, and when the file is open, all getters, the
  items and all stream reads (which depend on `ctx` and `tree` only) give the same.  The close of the
  handle inside the failed open is assumed to succeed. -/
theorem C36_failed_open_invisible_partial (cmp : Bytes → Bytes → Option Bool) (st : FileState)
    (hst : Reachable cmp st) (hc : st.file.handle = none) (op : FileOp)
    (hop : (∃ n flags flt, op = .openHandle n flags flt ∧ flt.closing = false) ∨
      ∃ dev flags flt, op = .openName dev flags flt)
    (hfail : (op.run cmp st).1 ≠ .ok ()) (ops : List FileOp) :
    outcomes cmp (op.run cmp st).2 ops = outcomes cmp st ops ∧
    SameToUser (runOps cmp (op.run cmp st).2 ops) (runOps cmp st ops) := by
  have hi := reachable_inv hst
  have key : SameToUser (op.run cmp st).2 st := by
    rcases hop with ⟨n, flags, flt, rfl, hcl⟩ | ⟨dev, flags, flt, rfl⟩
    · have hr := C35_failed_open_restores cmp st hst (.user n) flags flt hcl hfail
      revert hfail hr
      simp only [FileOp.run]
      rcases openHandle_spec (cmp := cmp) (h := .user n) (flags := flags) (flt := flt) hi.closed with
        ⟨_, h1⟩ | ⟨⟨a, b, c, d⟩, ⟨l, hl, h1⟩ | ⟨hno, h1⟩⟩
      · rw [h1]; intro _ _
        exact ⟨rfl, fun _ => Iff.rfl, rfl, rfl, rfl, rfl, rfl, rfl, rfl, rfl, fun _ => rfl, fun _ => rfl,
          fun _ => rfl, by intro h h' e1 e2 _; rw [e1] at e2; cases e2; rfl, fun _ => rfl, fun _ => rfl⟩
      · rw [h1]; intro h; exact absurd rfl h
      · rw [h1]; intro _ hr
        refine ⟨rfl, fun _ => Iff.rfl, rfl, rfl, rfl, rfl, rfl, rfl, rfl, codepage_openCore _ _ _,
          by simp [hc], by simp [hc], by simp [hc], by simp [hc], fun m => hr _, fun m => ?_⟩
        simp only
        split
        · rfl
        · rw [(closeH_event _ _ _).2.1, (ensureOpen_isOpen _ _).2.2.1]
    · have hu := openName_user (cmp := cmp) hi dev flags flt
      have hcp := openName_codepage (cmp := cmp) hi dev flags flt
      revert hfail hu hcp
      simp only [FileOp.run]
      intro hfail hu hcp
      suffices hf : ∃ io, (openName cmp dev flags flt st).2.file = { st.file with io := io } by
        obtain ⟨io, hf⟩ := hf
        rw [hf] at hcp
        refine ⟨?_, ?_, ?_, ?_, ?_, ?_, ?_, ?_, ?_, ?_, ?_, ?_, ?_, ?_, fun n => (hu n).1, fun n => (hu n).2⟩ <;>
          rw [hf] <;> try simp [hc]
        exact hcp
      revert hfail
      rw [openName_eq]
      split
      · intro _; exact ⟨_, rfl⟩
      · split
        · intro _; exact ⟨_, rfl⟩
        · simp only
          split
          · intro h; exact absurd rfl h
          · intro _
            rename_i hne
            revert hne
            rcases openHandle_spec (cmp := cmp) (h := .lib st.world.made) (flags := flags) (flt := flt)
              (st := ⟨st.file, (st.world.createH dev).2⟩) hi.closed with
              ⟨_, h1⟩ | ⟨⟨a, b, c, d⟩, ⟨l, hl, h1⟩ | ⟨hno, h1⟩⟩
            · rw [h1]; intro _; exact ⟨_, rfl⟩
            · rw [h1]; intro h; exact absurd rfl h
            · rw [h1]; intro _; exact ⟨_, rfl⟩
  exact sameToUser_ops ops key (inv_run hi op) hi

end Olecf.Props
